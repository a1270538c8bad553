import Verif.Props.Succeeds
import Verif.Lemmas.KeplerPhase
import Verif.Lemmas.KeplerEquation

/-!
# C78: the Newtonian limit of a whole measurement
-/

namespace GwEcc

open Spec Real

/-- The data given to the measurement are samples, at increasing times, of the phase `φ` and the frequency of the (2,2)
mode of a Newtonian binary.  Every pericenter and apocenter passage in the range of the samples is sampled. -/
structure Spec.NewtonianData (ε q : ℝ) (f φ : ℝ → ℝ) (o : Obj ℝ) : Prop where
  times : o.t.Pairwise (· < ·)
  data : o.dataT = o.t
  phase : o.phase = o.t.map φ
  omega : o.omega = o.t.map (frequency (strain22 ε q f))
  apsides : ∀ x ∈ o.t, ∀ y ∈ o.t, ∀ s, x ≤ s → s ≤ y → AtPericenter f s ∨ AtApocenter f s → s ∈ o.t

/-- `l` lists, in increasing order, the samples other than the first and the last one at which `P` holds. -/
def Spec.FoundExactly (o : Obj ℝ) (P : ℝ → Prop) (l : List ℕ) : Prop :=
  l.Pairwise (· < ·) ∧ ∀ i, i ∈ l ↔ 0 < i ∧ i + 1 < o.t.length ∧ P (o.t.getD i 0)

/-- Increasing samples of the waveform, the last of them at least two samples after the first. -/
def Spec.Spread (o : Obj ℝ) (l : List ℕ) : Prop :=
  l.Pairwise (· < ·) ∧ (∀ i ∈ l, i < o.t.length) ∧ ∃ i ∈ l, ∃ j ∈ l, i + 2 ≤ j

/-- Splines (of the orders scipy supports) and rational fits through points of equal height are constant between the first
and the last of these points, and splines can be differentiated at their nodes.  (The rational fits are those through the
frequencies at pericenters `p` and apocenters `a`; they are tested at the times of samples from the first of the points on, and
at least two are needed.) -/
structure Spec.KeepsConstants (e : Ext ℝ) (o : Obj ℝ) : Prop where
  spline : ∀ k xs ys c x, 1 ≤ k → k ≤ 5 → k < xs.length → xs.Pairwise (· < ·) → ys.length = xs.length →
    (∀ y ∈ ys, y = c) → Within xs x → e.eval (.spline k 2) xs ys x = .ok c
  rational : o.interpMethod = "rational_fit" → ∀ ty p a cP cA, Spread o p → Spread o a → (∀ i ∈ p, o.omega.getD i 0 = cP) → (∀ i ∈ a, o.omega.getD i 0 = cA) →
    ∃ g, e.ratFit ty (p.map fun i => o.t.getD i 0) (p.map fun i => o.omega.getD i 0) (a.map fun i => o.t.getD i 0)
        (a.map fun i => o.omega.getD i 0) = .ok g ∧
      ∀ x, Within ((ty.pick p a).map fun i => o.t.getD i 0) x → g x = .ok (ty.pick cP cA)
  derivative : ∀ k xs ys x, 1 ≤ k → k ≤ 5 → k < xs.length → xs.Pairwise (· < ·) → ys.length = xs.length → x ∈ xs →
    ∃ v, e.deriv (.spline k 2) xs ys x = .ok v

theorem ExtremaCurve_unique {K : Type} [Field K] [LinearOrder K] {e : Ext K} {o : Obj K} {ty : ExtType} {p a : List ℕ}
    {f g : K → Py K} (hf : ExtremaCurve e o ty p a f) (hg : ExtremaCurve e o ty p a g) : f = g := by
  rcases hf with ⟨h1, h2⟩ | ⟨h1, h2⟩
  · rcases hg with ⟨h3, h4⟩ | ⟨h3, h4⟩
    · rw [h2] at h4; exact Except.ok.inj h4
    · rw [h1] at h3; exact absurd h3 (by decide)
  · rcases hg with ⟨h3, h4⟩ | ⟨h3, h4⟩
    · rw [h1] at h3; exact absurd h3 (by decide)
    · rw [h2, h4]

section

variable {ε q : ℝ} {f φ : ℝ → ℝ} {e : Ext ℝ} {o : Obj ℝ}

theorem tt_lt (D : NewtonianData ε q f φ o) {i j : ℕ} (hj : j < o.t.length) (hij : i < j) :
    o.t.getD i 0 < o.t.getD j 0 := by
  rw [List.getD_eq_getElem _ _ (hij.trans hj), List.getD_eq_getElem _ _ hj]
  exact List.pairwise_iff_getElem.mp D.times i j _ _ hij

theorem lt_of_tt (D : NewtonianData ε q f φ o) {i j : ℕ} (hi : i < o.t.length)
    (h : o.t.getD i 0 < o.t.getD j 0) : i < j := by
  by_contra hn
  rcases (not_lt.mp hn).lt_or_eq with h1 | h1
  · exact absurd (tt_lt D hi h1) h.not_gt
  · rw [h1] at h; exact lt_irrefl _ h

/-- An apsis value of the true anomaly strictly between those at two samples is taken at a sample between them. -/
theorem between (D : NewtonianData ε q f φ o) (hm : StrictMono f) (hc : Continuous f) {x y : ℕ} (hy : y < o.t.length)
    (hxy : x < y) {v : ℝ} (hv : cos v = 1 ∨ cos v = -1) (h1 : f (o.t.getD x 0) < v) (h2 : v < f (o.t.getD y 0)) :
    ∃ z, x < z ∧ z < y ∧ f (o.t.getD z 0) = v := by
  have hlt := tt_lt D hy hxy
  obtain ⟨s, ⟨hs1, hs2⟩, hs⟩ := intermediate_value_Icc hlt.le hc.continuousOn ⟨h1.le, h2.le⟩
  have hmem : s ∈ o.t := by
    refine D.apsides (o.t.getD x 0) ?_ (o.t.getD y 0) ?_ s hs1 hs2 ?_
    · rw [List.getD_eq_getElem _ _ (hxy.trans hy)]; exact List.getElem_mem _
    · rw [List.getD_eq_getElem _ _ hy]; exact List.getElem_mem _
    · unfold AtPericenter AtApocenter; rw [hs]; exact hv
  obtain ⟨z, hz, rfl⟩ := List.mem_iff_getElem.mp hmem
  have hzz : o.t[z] = o.t.getD z 0 := (List.getD_eq_getElem _ _ hz).symm
  rw [hzz] at hs
  refine ⟨z, lt_of_tt D (hxy.trans hy) (hm.lt_iff_lt.mp (by rw [hs]; exact h1)),
    lt_of_tt D hz (hm.lt_iff_lt.mp (by rw [hs]; exact h2)), hs⟩

/-- Neighbouring passages through the same apsis are one turn apart. -/
theorem neighbours (D : NewtonianData ε q f φ o) (hm : StrictMono f) (hc : Continuous f) {P : ℝ → Prop} {c : ℝ}
    (hP : ∀ s, P s ↔ ∃ k : ℤ, f s = c + k * (2 * π)) (hcos : cos c = 1 ∨ cos c = -1) {l : List ℕ}
    (hl : FoundExactly o P l) (j : ℕ) (hj : j + 1 < l.length) :
    f (o.t.getD l[j + 1] 0) = f (o.t.getD l[j] 0) + 2 * π := by
  have hpi := pi_pos
  have h1 := (hl.2 l[j]).mp (List.getElem_mem _)
  have h2 := (hl.2 l[j + 1]).mp (List.getElem_mem _)
  have hlt : l[j] < l[j + 1] := List.pairwise_iff_getElem.mp hl.1 _ _ _ _ (Nat.lt_succ_self j)
  obtain ⟨k, hk⟩ := (hP _).mp h1.2.2
  obtain ⟨k', hk'⟩ := (hP _).mp h2.2.2
  have hff := hm (tt_lt D (by omega) hlt)
  rw [hk, hk'] at hff
  have hkk : k < k' := by
    have : (k : ℝ) * (2 * π) < k' * (2 * π) := by linarith
    exact_mod_cast lt_of_mul_lt_mul_right this (by positivity)
  by_cases hn : k' = k + 1
  · rw [hk, hk', hn]; push_cast; ring
  · exfalso
    have hk2 : k + 1 < k' := by omega
    obtain ⟨z, hz1, hz2, hz⟩ := between D hm hc (x := l[j]) (y := l[j + 1]) (by omega) hlt (v := c + ((k + 1 : ℤ) : ℝ) * (2 * π))
      (by rw [cos_add_int_mul_two_pi]; exact hcos)
      (by rw [hk]; push_cast; linarith)
      (by
        rw [hk']
        have : ((k + 1 : ℤ) : ℝ) * (2 * π) < (k' : ℝ) * (2 * π) :=
          mul_lt_mul_of_pos_right (by exact_mod_cast hk2) (by positivity)
        linarith)
    have hzl : z ∈ l := (hl.2 z).mpr ⟨by omega, by omega, (hP _).mpr ⟨k + 1, hz⟩⟩
    obtain ⟨i, hi, rfl⟩ := List.mem_iff_getElem.mp hzl
    have m1 : j < i := by
      by_contra hc
      rcases (not_lt.mp hc).lt_or_eq with h | h
      · have := List.pairwise_iff_getElem.mp hl.1 _ _ hi (by omega) h; omega
      · subst h; omega
    have m2 : i < j + 1 := by
      by_contra hc
      rcases (not_lt.mp hc).lt_or_eq with h | h
      · have := List.pairwise_iff_getElem.mp hl.1 _ _ hj hi h; omega
      · subst h; omega
    omega

theorem peri_iff (s : ℝ) : AtPericenter f s ↔ ∃ k : ℤ, f s = 0 + k * (2 * π) := by
  unfold AtPericenter
  rw [cos_eq_one_iff]
  simp only [zero_add, eq_comm]

theorem apo_iff (s : ℝ) : AtApocenter f s ↔ ∃ k : ℤ, f s = π + k * (2 * π) := by
  unfold AtApocenter
  rw [cos_eq_neg_one_iff]
  simp only [eq_comm]

theorem sin_of_cos {x : ℝ} (h : cos x = 1 ∨ cos x = -1) : sin x = 0 := by
  have := sin_sq_add_cos_sq x
  rcases h with h | h <;> rw [h] at this <;> exact pow_eq_zero_iff (two_ne_zero) |>.mp (by linarith)

theorem within_sample (D : NewtonianData ε q f φ o) {l : List ℕ} (hl : l.Pairwise (· < ·)) (hin : ∀ i ∈ l, i < o.t.length)
    {i u v : ℕ} (hu : u ∈ l) (hv : v ∈ l) (h1 : u ≤ i) (h2 : i ≤ v) (hi : i < o.t.length) :
    Within (l.map fun i => o.t.getD i 0) (o.t.getD i 0) := by
  have hne : l ≠ [] := List.ne_nil_of_mem hu
  have le : ∀ a b, b < o.t.length → a ≤ b → o.t.getD a 0 ≤ o.t.getD b 0 := by
    intro a b hb hab
    rcases hab.lt_or_eq with h | h
    · exact (tt_lt D hb h).le
    · rw [h]
  have hle : l.Pairwise (· ≤ ·) := hl.imp fun h => h.le
  refine ⟨o.t.getD (l.head hne) 0, o.t.getD (l.getLast hne) 0, ?_, ?_, ?_, ?_⟩
  · rw [List.head?_map, List.head?_eq_some_head hne]; rfl
  · rw [List.getLast?_map, List.getLast?_eq_some_getLast hne]; rfl
  · exact le _ _ hi (((hle.rel_head hu)).trans h1)
  · exact le _ _ (hin _ (List.getLast_mem hne)) (h2.trans (hle.rel_getLast hv))

theorem newtonian_good (hε : 0 ≤ ε) (hε1 : ε < 1) (hq : 0 < q) (orbit : KeplerOrbit ε q f)
    (hφ : IsPhase (strain22 ε q f) φ) (hpi : e.pi = π) (D : NewtonianData ε q f φ o) (hmid : o.midpoints = false)
    {p a : List ℕ} (hfp : e.find .pericenters = .ok p) (hfa : e.find .apocenters = .ok a)
    (hp : FoundExactly o (AtPericenter f) p) (ha : FoundExactly o (AtApocenter f) a) (h2p : 2 ≤ p.length)
    (h2a : 2 ≤ a.length) : GoodExtrema e o p a := by
  have hm := f_strictMono hε hε1 hq orbit
  have hc := f_continuous orbit
  have hpos := pi_pos
  have hphase : ∀ i, i < o.t.length → o.phase.getD i 0 = φ (o.t.getD i 0) := by
    intro i hi
    rw [D.phase, List.getD_eq_getElem _ _ (by simpa using hi), List.getElem_map, List.getD_eq_getElem _ _ hi]
  have inl : ∀ {P : ℝ → Prop} {l : List ℕ}, FoundExactly o P l → ∀ i ∈ l, i < o.t.length := by
    intro P l h i hi
    have := (h.2 i).mp hi
    omega
  have aps : ∀ {P : ℝ → Prop} {l : List ℕ}, (∀ s, P s → cos (f s) = 1 ∨ cos (f s) = -1) → FoundExactly o P l →
      ∀ i ∈ l, sin (f (o.t.getD i 0)) = 0 := by
    intro P l hP h i hi
    exact sin_of_cos (hP _ ((h.2 i).mp hi).2.2)
  have step : ∀ {P : ℝ → Prop} {c : ℝ} {l : List ℕ}, (∀ s, P s → cos (f s) = 1 ∨ cos (f s) = -1) →
      (∀ s, P s ↔ ∃ k : ℤ, f s = c + k * (2 * π)) → (cos c = 1 ∨ cos c = -1) → FoundExactly o P l →
      ∀ j (hj : j + 1 < l.length), o.phase.getD l[j + 1] 0 - o.phase.getD l[j] 0 = 4 * π := by
    intro P c l hP hPc hcos hl j hj
    rw [hphase _ (inl hl _ (List.getElem_mem _)), hphase _ (inl hl _ (List.getElem_mem _)),
      phase_apsis hε hε1 hq orbit hφ (aps hP hl _ (List.getElem_mem _)) (aps hP hl _ (List.getElem_mem _)),
      neighbours D hm hc hPc hcos hl j hj]
    ring
  have incr : ∀ {P : ℝ → Prop} {l : List ℕ}, (∀ s, P s → cos (f s) = 1 ∨ cos (f s) = -1) → FoundExactly o P l →
      (l.map fun i => o.phase.getD i 0).Pairwise (· < ·) := by
    intro P l hP hl
    rw [List.pairwise_map]
    refine hl.1.imp_of_mem ?_
    intro i j hi hj hij
    have h1 := phase_apsis hε hε1 hq orbit hφ (aps hP hl i hi) (aps hP hl j hj)
    have h2 := hm (tt_lt D (inl hl j hj) hij)
    rw [hphase i (inl hl i hi), hphase j (inl hl j hj)]
    linarith
  have steps : ∀ {P : ℝ → Prop} {c : ℝ} {l : List ℕ}, (∀ s, P s → cos (f s) = 1 ∨ cos (f s) = -1) →
      (∀ s, P s ↔ ∃ k : ℤ, f s = c + k * (2 * π)) → (cos c = 1 ∨ cos c = -1) → FoundExactly o P l →
      ∀ j, ¬ Grows (fun i => o.phase.getD i 0) (3 / 2) l j ∧ ¬ Shrinks (fun i => o.phase.getD i 0) (3 / 2) l j ∧
        ¬ Close (fun i => o.phase.getD i 0) (4 * e.pi) l j := by
    intro P c l hP hPc hcos hl j
    refine ⟨?_, ?_, ?_⟩
    · rintro ⟨h, hlt⟩
      have h1 := step hP hPc hcos hl j (by omega)
      have h2 := step hP hPc hcos hl (j + 1) h
      simp only [h1, h2] at hlt
      linarith
    · rintro ⟨h, hlt⟩
      have h1 := step hP hPc hcos hl j (by omega)
      have h2 := step hP hPc hcos hl (j + 1) h
      simp only [h1, h2] at hlt
      linarith
    · rintro ⟨h, hlt⟩
      simp only [step hP hPc hcos hl j h, hpi] at hlt
      exact lt_irrefl _ hlt
  have P1 : ∀ s, AtPericenter f s → cos (f s) = 1 ∨ cos (f s) = -1 := fun s h => Or.inl h
  have P2 : ∀ s, AtApocenter f s → cos (f s) = 1 ∨ cos (f s) = -1 := fun s h => Or.inr h
  exact
    { times := D.times
      foundP := hfp
      foundA := by rw [hmid, if_neg (by simp)]; exact hfa
      incP := hp.1
      incA := ha.1
      inP := inl hp
      inA := inl ha
      twoP := h2p
      twoA := h2a
      phaseP := incr P1 hp
      phaseA := incr P2 ha
      stepsP := steps P1 peri_iff (Or.inl cos_zero) hp
      stepsA := steps P2 apo_iff (Or.inr cos_pi) ha
      alternate := by
        constructor
        · intro x hx y hy hxy
          obtain ⟨k, hk⟩ := (peri_iff _).mp ((hp.2 x).mp hx).2.2
          obtain ⟨k', hk'⟩ := (peri_iff _).mp ((hp.2 y).mp hy).2.2
          have hff := hm (tt_lt D (inl hp y hy) hxy)
          rw [hk, hk'] at hff
          have hkk : k < k' := by
            have : (k : ℝ) * (2 * π) < k' * (2 * π) := by linarith
            exact_mod_cast lt_of_mul_lt_mul_right this (by positivity)
          have hkr : (k : ℝ) + 1 ≤ k' := by exact_mod_cast hkk
          have hm2 := mul_le_mul_of_nonneg_right hkr (by positivity : (0:ℝ) ≤ 2 * π)
          obtain ⟨z, hz1, hz2, hz⟩ := between D hm hc (inl hp y hy) hxy (v := π + k * (2 * π))
            (Or.inr (by rw [cos_add_int_mul_two_pi, cos_pi])) (by rw [hk]; linarith) (by rw [hk']; linarith)
          have := (hp.2 y).mp hy
          exact ⟨z, (ha.2 z).mpr ⟨by omega, by omega, (apo_iff _).mpr ⟨k, hz⟩⟩, hz1, hz2⟩
        · intro x hx y hy hxy
          obtain ⟨k, hk⟩ := (apo_iff _).mp ((ha.2 x).mp hx).2.2
          obtain ⟨k', hk'⟩ := (apo_iff _).mp ((ha.2 y).mp hy).2.2
          have hff := hm (tt_lt D (inl ha y hy) hxy)
          rw [hk, hk'] at hff
          have hkk : k < k' := by
            have : (k : ℝ) * (2 * π) < k' * (2 * π) := by linarith
            exact_mod_cast lt_of_mul_lt_mul_right this (by positivity)
          have hkr : (k : ℝ) + 1 ≤ k' := by exact_mod_cast hkk
          have hm2 := mul_le_mul_of_nonneg_right hkr (by positivity : (0:ℝ) ≤ 2 * π)
          obtain ⟨z, hz1, hz2, hz⟩ := between D hm hc (inl ha y hy) hxy (v := 0 + ((k + 1 : ℤ) : ℝ) * (2 * π))
            (Or.inl (by rw [cos_add_int_mul_two_pi, cos_zero])) (by rw [hk]; push_cast; linarith)
            (by rw [hk']; push_cast; linarith)
          have := (ha.2 y).mp hy
          exact ⟨z, (hp.2 z).mpr ⟨by omega, by omega, (peri_iff _).mpr ⟨k + 1, hz⟩⟩, hz1, hz2⟩ }

/-- **C78.** The whole measurement in the Newtonian limit.  The data sample the phase and the frequency of the (2,2) mode of
a binary moving on a Keplerian ellipse of eccentricity `ε`, with every passage through pericenter and apocenter sampled and
found, at least two of each.  Then a measurement at given times, one of which lies in the common range of pericenters and
apocenters, succeeds, with either interpolation method.  It answers exactly the times in that range.  Every eccentricity
returned is `ε`.  Every mean anomaly returned is the time since the last passage through pericenter, in units of the
period, times 2π; it solves Kepler's equation. -/
theorem C78_newtonian_measurement (hε : 0 ≤ ε) (hε1 : ε < 1) (hq : 0 < q) (orbit : KeplerOrbit ε q f)
    (hφ : IsPhase (strain22 ε q f) φ) (hpi : e.pi = π) (hecc : e.eccOf = eccFromOmega) (hfit : KeepsConstants e o)
    (D : NewtonianData ε q f φ o) (hd : o.domain = .time) (hl : o.level = 0)
    (hpf : (o.precessing && o.filtered) = false) (hmid : o.midpoints = false)
    (hm : o.interpMethod = "rational_fit" ∨ o.interpMethod = "spline") (hk1 : 1 ≤ o.extremaKw.k) (hk5 : o.extremaKw.k ≤ 5)
    (hg1 : 1 ≤ o.generalKw.k) (hg5 : o.generalKw.k ≤ 5)
    (cache : AvgCache ℝ) (p a : List ℕ) (hfp : e.find .pericenters = .ok p) (hfa : e.find .apocenters = .ok a)
    (hp : FoundExactly o (AtPericenter f) p) (ha : FoundExactly o (AtApocenter f) a) (h2p : 2 ≤ p.length)
    (h2a : 2 ≤ a.length) (href : ∃ x ∈ o.refIn.atleast1d, Covered o p a x) :
    ∃ ret m ve va vr T, measureEcc e o cache = .ok (ret, some m, cache) ∧ OrbitalPeriod f T ∧
      ret.get? "eccentricity" = some ve ∧ ret.get? "mean_anomaly" = some va ∧ ret.get? "tref_out" = some vr ∧
      vr.atleast1d.Sublist o.refIn.atleast1d ∧
      (∀ x, x ∈ vr.atleast1d ↔ x ∈ o.refIn.atleast1d ∧ Covered o p a x) ∧
      ve.atleast1d = vr.atleast1d.map (fun _ => ε) ∧
      List.Forall₂ (fun t l => KeplerEquation ε l (f t) ∧
        ∃ τ, AtPericenter f τ ∧ τ ≤ t ∧ t < τ + T ∧ l = 2 * π * ((t - τ) / T)) vr.atleast1d va.atleast1d := by
  classical
  have good := newtonian_good hε hε1 hq orbit hφ hpi D hmid hfp hfa hp ha h2p h2a
  have hmono := f_strictMono hε hε1 hq orbit
  have hc := f_continuous orbit
  have hpos := pi_pos
  obtain ⟨T, hT⟩ := exists_period hε hε1 hq orbit
  have homega : ∀ i, i < o.t.length → o.omega.getD i 0 = frequency (strain22 ε q f) (o.t.getD i 0) := by
    intro i hi
    rw [D.omega, List.getD_eq_getElem _ _ (by simpa using hi), List.getElem_map, List.getD_eq_getElem _ _ hi]
  have incP : (p.map fun i => o.t.getD i 0).Pairwise (· < ·) := takeAt_increasing D.times good.inP good.incP
  have incA : (a.map fun i => o.t.getD i 0).Pairwise (· < ·) := takeAt_increasing D.times good.inA good.incA
  -- the curves are constant
  have p01 : p[0] < p[1] := List.pairwise_iff_getElem.mp hp.1 _ _ _ _ (by omega)
  have a01 : a[0] < a[1] := List.pairwise_iff_getElem.mp ha.1 _ _ _ _ (by omega)
  have mp0 : p[0] ∈ p := List.getElem_mem _
  have mp1 : p[1] ∈ p := List.getElem_mem _
  have ma0 : a[0] ∈ a := List.getElem_mem _
  have ma1 : a[1] ∈ a := List.getElem_mem _
  have spreadP : Spread o p := by
    obtain ⟨z, hz, hz1, hz2⟩ := good.alternate.1 _ mp0 _ mp1 p01
    exact ⟨hp.1, good.inP, p[0], mp0, p[1], mp1, by omega⟩
  have spreadA : Spread o a := by
    obtain ⟨z, hz, hz1, hz2⟩ := good.alternate.2 _ ma0 _ ma1 a01
    exact ⟨ha.1, good.inA, a[0], ma0, a[1], ma1, by omega⟩
  have curve : ∀ (cP cA : ℝ), (∀ i ∈ p, o.omega.getD i 0 = cP) → (∀ i ∈ a, o.omega.getD i 0 = cA) → ∀ (ty : ExtType),
      ∃ g, ExtremaCurve e o ty p a g ∧
        ∀ x, Within ((ty.pick p a).map fun i => o.t.getD i 0) x → g x = .ok (ty.pick cP cA) := by
    intro cP cA hvP hvA ty
    obtain ⟨l, hl⟩ : ∃ l, l = ty.pick p a := ⟨_, rfl⟩
    obtain ⟨c, hc⟩ : ∃ c, c = ty.pick cP cA := ⟨_, rfl⟩
    have h2 : 2 ≤ l.length := by rw [hl]; cases ty <;> assumption
    have hinc : (l.map fun i => o.t.getD i 0).Pairwise (· < ·) := by rw [hl]; cases ty <;> assumption
    have hval : ∀ i ∈ l, o.omega.getD i 0 = c := by rw [hl, hc]; cases ty <;> assumption
    have hys : ∀ y ∈ l.map (fun i => o.omega.getD i 0), y = c := by
      intro y hy
      obtain ⟨i, hi, rfl⟩ := List.mem_map.mp hy
      exact hval i hi
    rcases hm with hm | hm
    · obtain ⟨g, hg1, hg2⟩ := hfit.rational hm ty p a cP cA spreadP spreadA hvP hvA
      exact ⟨g, Or.inl ⟨hm, hg1⟩, hg2⟩
    · rw [← hl, ← hc]
      refine ⟨_, Or.inr ⟨hm, by rw [← hl]⟩, fun x hx => hfit.spline _ _ _ c x ?_ ?_ ?_ hinc (by simp) hys hx⟩
      · exact le_min hk1 (by omega)
      · exact (min_le_left _ _).trans hk5
      · rw [List.length_map]
        exact lt_of_le_of_lt (min_le_right _ _) (by omega)
  obtain ⟨tp, htp⟩ : ∃ tp, AtPericenter f tp := ⟨_, ((hp.2 p[0]).mp (List.getElem_mem _)).2.2⟩
  obtain ⟨ta, hta⟩ : ∃ ta, AtApocenter f ta := ⟨_, ((ha.2 a[0]).mp (List.getElem_mem _)).2.2⟩
  have curve := curve (frequency (strain22 ε q f) tp) (frequency (strain22 ε q f) ta) (by
      intro i hi
      rw [homega i (good.inP i hi), frequency_apsis hε hε1 hq orbit _ 1 ((hp.2 i).mp hi).2.2 (by norm_num),
        frequency_apsis hε hε1 hq orbit _ 1 htp (by norm_num)]) (by
      intro i hi
      rw [homega i (good.inA i hi), frequency_apsis hε hε1 hq orbit _ (-1) ((ha.2 i).mp hi).2.2 (by norm_num),
        frequency_apsis hε hε1 hq orbit _ (-1) hta (by norm_num)])
  obtain ⟨fP, cP, vP⟩ := curve .pericenters
  obtain ⟨fA, cA, vA⟩ := curve .apocenters
  -- two samples in the common range
  have hcov : ∀ i u v u' v', u ∈ p → v ∈ p → u' ∈ a → v' ∈ a → u ≤ i → i ≤ v → u' ≤ i → i ≤ v' →
      i < o.t.length → o.t.getD i 0 ∈ o.t ∧ Covered o p a (o.t.getD i 0) := by
    intro i u v u' v' hu hv hu' hv' h1 h2 h3 h4 hi
    exact ⟨by rw [List.getD_eq_getElem _ _ hi]; exact List.getElem_mem _,
      within_sample D good.incP good.inP hu hv h1 h2 hi, within_sample D good.incA good.inA hu' hv' h3 h4 hi⟩
  have hne : ∀ i ∈ p, ∀ j ∈ a, i ≠ j := by
    rintro i hi j hj rfl
    have h1 : cos _ = 1 := ((hp.2 i).mp hi).2.2
    have h2 : cos _ = -1 := ((ha.2 i).mp hj).2.2
    rw [h1] at h2
    norm_num at h2
  have htwo : ∃ x y, x ≠ y ∧ x ∈ o.dataT ∧ y ∈ o.dataT ∧ Covered o p a x ∧ Covered o p a y := by
    rw [D.data]
    rcases lt_or_gt_of_ne (hne _ mp0 _ ma0) with h | h
    · obtain ⟨z, hz, hz1, hz2⟩ := good.alternate.2 _ ma0 _ ma1 a01
      have c1 := hcov a[0] p[0] z a[0] a[1] mp0 hz ma0 ma1 (by omega) (by omega) (by omega) (by omega) (good.inA _ ma0)
      have c2 := hcov z p[0] z a[0] a[1] mp0 hz ma0 ma1 (by omega) (by omega) (by omega) (by omega) (good.inP _ hz)
      exact ⟨_, _, (tt_lt D (good.inP _ hz) hz1).ne, c1.1, c2.1, c1.2, c2.2⟩
    · obtain ⟨z, hz, hz1, hz2⟩ := good.alternate.1 _ mp0 _ mp1 p01
      have c1 := hcov p[0] p[0] p[1] a[0] z mp0 mp1 ma0 hz (by omega) (by omega) (by omega) (by omega) (good.inP _ mp0)
      have c2 := hcov z p[0] p[1] a[0] z mp0 mp1 ma0 hz (by omega) (by omega) (by omega) (by omega) (good.inA _ hz)
      exact ⟨_, _, (tt_lt D (good.inA _ hz) hz1).ne, c1.1, c2.1, c1.2, c2.2⟩
  have hpi0 : 0 < e.pi := by rw [hpi]; exact hpos
  obtain ⟨ret, m, hrun, hmp, hma⟩ := C77_succeeds e o cache p a fP fA hpi0 hd hl hpf good (by rw [D.data]; exact D.times) cP cA
    (fun x hx => ⟨⟨_, vP x hx.1⟩, ⟨_, vA x hx.2⟩⟩) htwo href (by
      intro xs ys t h1 h2 h3 h4
      refine hfit.derivative _ xs ys t (le_min hg1 (by omega)) ((min_le_left _ _).trans hg5)
        (lt_of_le_of_lt (min_le_right _ _) (by omega)) h3 h1.symm h4)
  obtain ⟨fP', fA', ve, va, vr, ts, k1, k2, k3, k4, k5, k6, k7, k8, _⟩ :=
    C75_returned_numbers e o cache cache ret m hpi0 (by rw [hmp]; exact incP) hrun
  rw [hmp, hma] at k1 k2
  rw [hmp] at k7
  rw [ExtremaCurve_unique k1 cP, ExtremaCurve_unique k2 cA] at k6
  rw [← k8 hd] at k6 k7
  rw [hd] at k5
  have k5 : ret.get? "tref_out" = some vr := k5
  obtain ⟨u1, u2, _⟩ := C07_extrema_used e o cache cache ret m hrun
  obtain ⟨v, w1, w2, _⟩ := C07_times_answered e o cache cache ret m hd hrun (fun x => decide (Covered o p a x)) (by
    intro x
    rw [decide_eq_true_eq, u1, u2, hmp, hma]
    rfl)
  have hv : v = vr := by rw [w1] at k5; exact Option.some.inj k5
  rw [hv] at w2
  have hmem : ∀ x, x ∈ vr.atleast1d ↔ x ∈ o.refIn.atleast1d ∧ Covered o p a x := by
    intro x
    rw [w2, List.mem_filter, decide_eq_true_eq]
  refine ⟨ret, m, ve, va, vr, T, hrun, hT, k3, k4, k5, by rw [w2]; exact List.filter_sublist, hmem, ?_, ?_⟩
  · have hin : ∀ x ∈ vr.atleast1d, Covered o p a x := fun x hx => ((hmem x).mp hx).2
    generalize vr.atleast1d = A at hin k6
    generalize ve.atleast1d = B at k6
    clear * - hin k6 hecc vP vA hε hε1 hq orbit htp hta
    induction k6 with
    | nil => rfl
    | cons hx _ ih =>
      rename_i x y xs ys _
      obtain ⟨wp, wa, h1, h2, h3⟩ := hx
      have hcx := hin x (by simp)
      rw [vP _ hcx.1] at h1
      rw [vA _ hcx.2] at h2
      rw [List.map_cons, ← ih fun x hx => hin x (by simp [hx]), h3, hecc, ← Except.ok.inj h1, ← Except.ok.inj h2]
      dsimp only [ExtType.pick]
      rw [C13_newtonian_limit hε hε1 hq orbit htp hta]
  · have key : ∀ x l, Covered o p a x → IsMeanAnomaly e.pi (p.map fun i => o.t.getD i 0) x l →
        ∃ τ, AtPericenter f τ ∧ τ ≤ x ∧ x < τ + T ∧ l = 2 * π * ((x - τ) / T) := by
      intro x l hx hl
      rcases C15_determined _ x hx.1 with ⟨c, d, hcd⟩ | hlast
      · have hval := hl.1 c d hcd
        obtain ⟨h1, h2, i, h3, h4⟩ := hcd
        rw [List.getElem?_map, Option.map_eq_some_iff] at h3 h4
        obtain ⟨i1, h3, rfl⟩ := h3
        obtain ⟨i2, h4, rfl⟩ := h4
        obtain ⟨hi1, rfl⟩ := List.getElem?_eq_some_iff.mp h3
        obtain ⟨hi2, rfl⟩ := List.getElem?_eq_some_iff.mp h4
        have hstep : o.t.getD p[i + 1] 0 = o.t.getD p[i] 0 + T := by
          apply hmono.injective
          rw [hT.2, neighbours D hmono hc peri_iff (Or.inl cos_zero) hp i hi2]
        refine ⟨_, ((hp.2 p[i]).mp (List.getElem_mem _)).2.2, h1, by rw [← hstep]; exact h2, ?_⟩
        rw [hval, hpi, hstep]
        ring
      · refine ⟨x, ?_, le_refl _, by linarith [hT.1], ?_⟩
        · have hx' := List.mem_of_getLast? hlast
          obtain ⟨i, hi, rfl⟩ := List.mem_map.mp hx'
          exact ((hp.2 i).mp hi).2.2
        · rw [hl.2 hlast]; simp
    have hin : ∀ x ∈ vr.atleast1d, Covered o p a x := fun x hx => ((hmem x).mp hx).2
    generalize vr.atleast1d = A at hin k7
    generalize va.atleast1d = B at k7
    clear * - hin k7 key hε hε1 hq orbit hT
    induction k7 with
    | nil => exact .nil
    | cons hx _ ih =>
      rename_i x y xs ys _
      obtain ⟨τ, t1, t2, t3, t4⟩ := key _ _ (hin x (by simp)) hx
      refine .cons ⟨?_, τ, t1, t2, t3, t4⟩ (ih fun x hx => hin x (by simp [hx]))
      rw [t4]
      exact kepler_equation hε hε1 hq orbit hT t1 x

end

/-! ### The premises are met, for every eccentricity and every size of the orbit

Samples at the seven apsides with true anomaly 0, π, ..., 6π. -/

namespace NewtonDemo

open Classical in
/-- Interpolation that returns the first value, and finders that look at the true anomaly. -/
noncomputable def ext (times : List ℝ) (f : ℝ → ℝ) : Ext ℝ where
  pi := π
  tol := 1 / 10000000000
  monoTol := 1 / 100000
  eccOf := eccFromOmega
  eval := fun _ _ ys _ => .ok (ys.headD 0)
  deriv := fun _ _ _ _ => .ok 0
  ratFit := fun ty _ yP _ yA => .ok fun _ => .ok ((ty.pick yP yA).headD 0)
  argsort := fun l => List.range l.length
  find := fun ty => .ok ((List.range times.length).filter fun i => decide (0 < i ∧ i + 1 < times.length ∧
    match ty with
    | .pericenters => AtPericenter f (times.getD i 0)
    | .apocenters => AtApocenter f (times.getD i 0)))

noncomputable def obj (ε q : ℝ) (f φ : ℝ → ℝ) (times : List ℝ) (method : String) : Obj ℝ where
  t := times
  dataT := times
  phase := times.map φ
  omega := times.map (frequency (strain22 ε q f))
  domain := .time
  refIn := .scalar (times.getD 3 0)
  interpMethod := method

theorem keeps (times : List ℝ) (f : ℝ → ℝ) : ∀ o, KeepsConstants (ext times f) o := by
  intro o
  have key : ∀ (n : ℕ) (xs ys : List ℝ) (c : ℝ), n < xs.length → ys.length = xs.length → (∀ y ∈ ys, y = c) →
      ys.headD 0 = c := by
    intro n xs ys c h1 h2 h3
    match ys, h2, h3 with
    | [], h2, _ => simp at h2; omega
    | y :: _, _, h3 => exact h3 y (by simp)
  refine ⟨?_, ?_, fun _ _ _ _ _ _ _ _ _ _ => ⟨0, rfl⟩⟩
  · intro k xs ys c x _ _ h1 _ h2 h3 _
    show Except.ok _ = _
    rw [key k xs ys c h1 h2 h3]
  · rintro _ ty p a cP cA ⟨_, _, i, hi, _⟩ ⟨_, _, j, hj, _⟩ h1 h2
    refine ⟨_, rfl, fun x _ => ?_⟩
    show Except.ok _ = _
    cases ty
    · show Except.ok ((p.map fun i => o.omega.getD i 0).headD 0) = .ok cP
      rw [key 0 (p.map fun i => o.omega.getD i 0) _ cP (by rw [List.length_map]; exact List.length_pos_of_mem hi) rfl (by simpa using h1)]
    · show Except.ok ((a.map fun i => o.omega.getD i 0).headD 0) = .ok cA
      rw [key 0 (a.map fun i => o.omega.getD i 0) _ cA (by rw [List.length_map]; exact List.length_pos_of_mem hj) rfl (by simpa using h2)]

theorem found (times : List ℝ) (f : ℝ → ℝ) (o : Obj ℝ) (ho : o.t = times) :
    ∃ p a, (ext times f).find .pericenters = .ok p ∧ (ext times f).find .apocenters = .ok a ∧
      FoundExactly o (AtPericenter f) p ∧ FoundExactly o (AtApocenter f) a := by
  classical
  subst ho
  refine ⟨_, _, rfl, rfl, ⟨List.pairwise_lt_range.sublist List.filter_sublist, ?_⟩,
    ⟨List.pairwise_lt_range.sublist List.filter_sublist, ?_⟩⟩
  all_goals
    intro i
    rw [List.mem_filter, List.mem_range, decide_eq_true_eq]
    constructor
    · rintro ⟨_, h⟩; exact h
    · rintro h; exact ⟨by omega, h⟩

/-- All the premises of `C78_newtonian_measurement` hold together. -/
theorem premises {ε q : ℝ} (hε : 0 ≤ ε) (hε1 : ε < 1) (hq : 0 < q) (method : String) :
    ∃ f φ times p a, KeplerOrbit ε q f ∧ IsPhase (strain22 ε q f) φ ∧
      NewtonianData ε q f φ (obj ε q f φ times method) ∧ (ext times f).find .pericenters = .ok p ∧
      (ext times f).find .apocenters = .ok a ∧ FoundExactly (obj ε q f φ times method) (AtPericenter f) p ∧
      FoundExactly (obj ε q f φ times method) (AtApocenter f) a ∧ 2 ≤ p.length ∧ 2 ≤ a.length ∧
      ∃ x ∈ (obj ε q f φ times method).refIn.atleast1d, Covered (obj ε q f φ times method) p a x := by
  obtain ⟨f, orbit, hs⟩ := exists_kepler hε hε1 hq
  obtain ⟨φ, hφ⟩ := exists_phase hε hε1 hq orbit
  have hm := f_strictMono hε hε1 hq orbit
  have hpos := pi_pos
  choose τ hτ using fun k : ℕ => hs (k * π)
  have hτm : ∀ i j, i < j → τ i < τ j := by
    intro i j hij
    rw [← hm.lt_iff_lt, hτ, hτ]
    have : (i : ℝ) < j := by exact_mod_cast hij
    nlinarith
  obtain ⟨times, htimes⟩ : ∃ l, l = (List.range 7).map τ := ⟨_, rfl⟩
  have hget : ∀ i, i < 7 → times.getD i 0 = τ i := by
    intro i hi
    rw [htimes, List.getD_eq_getElem _ _ (by simpa using hi)]
    simp
  have D : NewtonianData ε q f φ (obj ε q f φ times method) := by
    refine ⟨?_, rfl, rfl, rfl, ?_⟩
    · show times.Pairwise _
      rw [htimes, List.pairwise_map]
      exact List.pairwise_lt_range.imp fun h => hτm _ _ h
    · intro x hx y hy s h1 h2 hs
      have hx' : x ∈ times := hx
      have hy' : y ∈ times := hy
      show s ∈ times
      rw [htimes, List.mem_map] at hx' hy' ⊢
      obtain ⟨i, hi, rfl⟩ := hx'
      obtain ⟨j, hj, rfl⟩ := hy'
      rw [List.mem_range] at hi hj
      obtain ⟨n, hn⟩ : ∃ n : ℤ, (n : ℝ) * π = f s := by
        rw [← sin_eq_zero_iff]
        exact sin_of_cos hs
      have b1 := hm.monotone h1
      have b2 := hm.monotone h2
      rw [hτ, ← hn] at b1 b2
      have c1 : ((i : ℤ) : ℝ) ≤ n := by
        have := le_of_mul_le_mul_right b1 hpos
        exact_mod_cast this
      have c2 : (n : ℝ) ≤ (j : ℤ) := by
        have := le_of_mul_le_mul_right b2 hpos
        exact_mod_cast this
      have c1' : (i : ℤ) ≤ n := by exact_mod_cast c1
      have c2' : n ≤ (j : ℤ) := by exact_mod_cast c2
      obtain ⟨k, rfl⟩ := Int.eq_ofNat_of_zero_le (by omega : 0 ≤ n)
      refine ⟨k, by rw [List.mem_range]; omega, ?_⟩
      apply hm.injective
      rw [hτ, ← hn]
      simp
  obtain ⟨p, a, h1, h2, hp, ha⟩ := found times f (obj ε q f φ times method) rfl
  have hlen : (obj ε q f φ times method).t.length = 7 := by show times.length = 7; rw [htimes]; simp
  have hval : ∀ i, i < 7 → f ((obj ε q f φ times method).t.getD i 0) = i * π := by
    intro i hi
    show f (times.getD i 0) = _
    rw [hget i hi, hτ]
  have mp : ∀ k : ℕ, 0 < 2 * k → 2 * k + 1 < 7 → 2 * k ∈ p := by
    intro k hk hk'
    rw [hp.2, hlen]
    refine ⟨hk, hk', ?_⟩
    unfold AtPericenter
    rw [hval _ (by omega), cos_eq_one_iff]
    exact ⟨k, by push_cast; ring⟩
  have ma : ∀ k : ℕ, 2 * k + 1 + 1 < 7 → 2 * k + 1 ∈ a := by
    intro k hk'
    rw [ha.2, hlen]
    refine ⟨by omega, hk', ?_⟩
    unfold AtApocenter
    rw [hval _ (by omega), cos_eq_neg_one_iff]
    exact ⟨k, by push_cast; ring⟩
  have two : ∀ (l : List ℕ) (x y : ℕ), x ∈ l → y ∈ l → x ≠ y → 2 ≤ l.length := by
    intro l x y hx hy hxy
    match l, hx, hy with
    | [z], hx, hy => rw [List.mem_singleton] at hx hy; omega
    | _ :: _ :: _, _, _ => simp
  have p2 := mp 1 (by omega) (by omega)
  have p4 := mp 2 (by omega) (by omega)
  have a1 := ma 0 (by omega)
  have a3 := ma 1 (by omega)
  have inp : ∀ i ∈ p, i < (obj ε q f φ times method).t.length := by
    intro i hi; have := (hp.2 i).mp hi; omega
  have ina : ∀ i ∈ a, i < (obj ε q f φ times method).t.length := by
    intro i hi; have := (ha.2 i).mp hi; omega
  refine ⟨f, φ, times, p, a, orbit, hφ, D, h1, h2, hp, ha, two p _ _ p2 p4 (by omega), two a _ _ a1 a3 (by omega),
    times.getD 3 0, by simp [obj, Val.atleast1d], ?_, ?_⟩
  · exact within_sample D hp.1 inp (i := 3) p2 p4 (by omega) (by omega) (by omega)
  · exact within_sample D ha.1 ina (i := 3) a1 a3 (by omega) (by omega) (by omega)

/-- A run of the model on such data, asked for the eccentricity at an apocenter. -/
example {ε q : ℝ} (hε : 0 ≤ ε) (hε1 : ε < 1) (hq : 0 < q) : ∃ e o ret m, measureEcc e o none = .ok (ret, some m, none) ∧
    (ret.get? "eccentricity").map Val.atleast1d = some [ε] := by
  obtain ⟨f, φ, times, p, a, h1, h2, h3, h4, h5, h6, h7, h8, h9, h10⟩ := premises hε hε1 hq "spline"
  obtain ⟨ret, m, ve, va, vr, T, r1, r2, r3, r4, r5, r6, r7, r8, r9⟩ := C78_newtonian_measurement (o := obj ε q f φ times "spline") hε hε1 hq h1 h2
    (e := ext times f) rfl rfl (keeps times f _) h3 rfl rfl rfl rfl (Or.inr rfl)
    (by simp [obj]) (by simp [obj]) (by simp [obj]) (by simp [obj])
    none p a h4 h5 h6 h7 h8 h9 h10
  refine ⟨_, _, ret, m, r1, ?_⟩
  obtain ⟨x, hx, hcx⟩ := h10
  have hmem := (r7 x).mpr ⟨hx, hcx⟩
  have hone : vr.atleast1d.length = 1 := by
    have := r6.length_le
    have h0 := List.length_pos_of_mem hmem
    simp only [obj, Val.atleast1d, List.length_singleton] at this
    unfold Val.atleast1d at *
    omega
  rw [r3, Option.map_some, r8]
  obtain ⟨y, hy⟩ := List.length_eq_one_iff.mp hone
  rw [hy]
  rfl

end NewtonDemo

end GwEcc
