import Verif.Lemmas.Trend
import Verif.Lemmas.RunDemo

/-!
# C95: the secular trend of the spin filter
-/

set_option linter.unusedSectionVars false

namespace GwEcc.Filter

/-- What is asked of scipy's iteration: from finite residuals it returns parameters with finite residuals whose sum of squares
is not larger. -/
def Descends (iterate : (ℝ × ℝ × ℝ → Option (List ℝ)) → ℝ × ℝ × ℝ → Py (ℝ × ℝ × ℝ)) : Prop :=
  ∀ f x0 v0, f x0 = some v0 → ∃ r v, iterate f x0 = .ok r ∧ f r = some v ∧ energy v ≤ energy v0

/-- It finds parameters without residuals where there are some. -/
def FindsExact (iterate : (ℝ × ℝ × ℝ → Option (List ℝ)) → ℝ × ℝ × ℝ → Py (ℝ × ℝ × ℝ)) : Prop :=
  ∀ f x0 v0 q v r, f x0 = some v0 → f q = some v → energy v = 0 → iterate f x0 = .ok r →
    ∃ v', f r = some v' ∧ energy v' = 0

theorem trendResiduals_some {pow : ℝ → ℝ → Option ℝ} {t x : List ℝ} {q : ℝ × ℝ × ℝ} {v : List ℝ} (hl : t.length = x.length)
    (h : trendResiduals pow t x q = some v) :
    (∀ s ∈ t, ∃ y, pow (q.1 - s) q.2.2 = some y) ∧
      v = List.zipWith (fun s y => y - (pnModel pow s q.1 q.2.1 q.2.2).getD 0) t x := by
  unfold trendResiduals at h
  have e := mapM_id_some h
  have hfin : ∀ n (hn : n < t.length), ∃ y, pow (q.1 - t[n]) q.2.2 = some y := by
    intro n hn
    have hz : n < (t.zip x).length := by rw [List.length_zip]; omega
    have e' := congrArg (fun l => l[n]?) e
    simp only [List.getElem?_map, List.getElem?_eq_getElem hz, Option.map_some, List.getElem_zip, pnModel] at e'
    cases hp : pow (q.1 - t[n]) q.2.2 with
    | some y => exact ⟨y, rfl⟩
    | none =>
      rw [hp] at e'
      simp only [Option.map_none] at e'
      cases hr : v[n]? with
      | none => rw [hr] at e'; cases e'
      | some w => rw [hr] at e'; cases e'
  refine ⟨fun s hs => ?_, ?_⟩
  · obtain ⟨n, hn, rfl⟩ := List.mem_iff_getElem.mp hs
    exact hfin n hn
  · have hvl : v.length = (t.zip x).length := by
      have := congrArg List.length e
      simpa using this.symm
    rw [List.length_zip] at hvl
    refine List.ext_getElem (by rw [hvl, List.length_zipWith]) fun n h1 h2 => ?_
    have hn : n < t.length := by omega
    obtain ⟨y, hy⟩ := hfin n hn
    have hz : n < (t.zip x).length := by rw [List.length_zip]; omega
    have e' := congrArg (fun l => l[n]?) e
    simp only [List.getElem?_map, List.getElem?_eq_getElem hz, Option.map_some, List.getElem_zip, pnModel, hy,
      List.getElem?_eq_getElem h1, Option.some.injEq] at e'
    rw [← e', List.getElem_zipWith]
    simp [pnModel, hy]

theorem trendResiduals_defined {K : Type} [Field K] [LinearOrder K] {pow : K → K → Option K} {t x : List K} {q : K × K × K}
    (h : ∀ s ∈ t, ∃ y, pow (q.1 - s) q.2.2 = some y) : ∃ v, trendResiduals pow t x q = some v := by
  unfold trendResiduals
  refine mapM_id_total fun o ho => ?_
  obtain ⟨s, hs, rfl⟩ := List.mem_map.mp ho
  obtain ⟨y, hy⟩ := h s.1 (List.of_mem_zip hs).1
  exact ⟨s.2 - q.2.1 * y, by simp [pnModel, hy]⟩

theorem npPow_pos {b : ℝ} (h : 0 < b) (p : ℝ) : npPow b p = some (b ^ p) := by
  unfold npPow
  rw [if_pos h]

theorem npPow_late : ∀ b ≤ 0, ∀ k : Kind, npPow b k.power = none := by
  intro b hb k
  unfold npPow
  rw [if_neg (not_lt.mpr hb)]
  split
  · cases k <;> norm_num [Kind.power]
  · rw [if_neg]
    intro h
    have h3 : ∀ z : ℤ, (z : ℝ) ≠ -(3 / 8) := by
      intro z hz
      have : (8 * z : ℝ) = (-3 : ℤ) := by push_cast; linarith
      have : 8 * z = -3 := by exact_mod_cast this
      omega
    have h4 : ∀ z : ℤ, (z : ℝ) ≠ -(1 / 4) := by
      intro z hz
      have : (4 * z : ℝ) = (-1 : ℤ) := by push_cast; linarith
      have : 4 * z = -1 := by exact_mod_cast this
      omega
    cases k
    · exact h4 _ h
    · exact h3 _ h

/-- The exponent of the time to the merger at leading post-Newtonian order: frequencies grow with the power -3/8 of the time to the
merger, amplitudes with the power -1/4. -/
noncomputable def leadingPower : Kind → ℝ
  | .omega => -(3 / 8)
  | .amp => -(1 / 4)

theorem power_eq (k : Kind) : (k.power : ℝ) = leadingPower k := by
  cases k <;> rfl

/-- **C95.**  For times before the merger the trend exists, it is a power law of the time to some merger at every sample, and
it fits the data in the sense of least squares no worse than the leading post-Newtonian order with the mean as its
amplitude. -/
theorem C95_trend (iterate : (ℝ × ℝ × ℝ → Option (List ℝ)) → ℝ × ℝ × ℝ → Py (ℝ × ℝ × ℝ)) (hit : Descends iterate)
    (t x : List ℝ) (kind : Kind) (tM : ℝ) (hl : t.length = x.length) (hx : x ≠ []) (ht : ∀ s ∈ t, s < tM) :
    ∃ trend tM' A p, trendFit npPow iterate t x kind tM = .ok trend ∧
      (∀ s ∈ t, ∃ y, npPow (tM' - s) p = some y ∧ trend s = A * y) ∧
      energy (List.zipWith (fun s y => y - trend s) t x) ≤
        energy (List.zipWith (fun s y => y - x.sum / x.length * (tM - s) ^ leadingPower kind) t x) := by
  rw [← power_eq]
  obtain ⟨v0, hv0⟩ := trendResiduals_defined (pow := npPow) (t := t) (x := x) (q := (tM, x.sum / x.length, kind.power))
    fun s hs => ⟨_, npPow_pos (sub_pos.mpr (ht s hs)) _⟩
  obtain ⟨r, v, h1, h2, h3⟩ := hit _ _ _ hv0
  obtain ⟨f1, f2⟩ := trendResiduals_some hl h2
  obtain ⟨g1, g2⟩ := trendResiduals_some hl hv0
  refine ⟨fun s => (pnModel npPow s r.1 r.2.1 r.2.2).getD 0, r.1, r.2.1, r.2.2, ?_, fun s hs => ?_, ?_⟩
  · unfold trendFit
    rw [if_pos ⟨hl, hx⟩]
    unfold leastSquares
    rw [hv0]
    dsimp only
    rw [h1, ok_bind]
    rfl
  · obtain ⟨y, hy⟩ := f1 s hs
    exact ⟨y, hy, by simp [pnModel, hy]⟩
  · rw [← f2]
    refine h3.trans (le_of_eq ?_)
    rw [g2]
    congr 1
    refine List.ext_getElem (by simp) fun n q1 q2 => ?_
    rw [List.length_zipWith] at q1
    rw [List.getElem_zipWith, List.getElem_zipWith]
    simp [pnModel, npPow_pos (sub_pos.mpr (ht _ (List.getElem_mem (show n < t.length by omega))))]

theorem eq_zero_of_energy {v : List ℝ} (h : energy v = 0) : ∀ y ∈ v, y = 0 := by
  induction v with
  | nil => simp
  | cons a v ih =>
    have hc : energy (a :: v) = a ^ 2 + energy v := by simp [energy]
    rw [hc] at h
    have h1 := energy_nonneg v
    have h2 := sq_nonneg a
    intro y hy
    rcases List.mem_cons.mp hy with rfl | hy
    · exact pow_eq_zero_iff (two_ne_zero) |>.mp (by linarith)
    · exact ih (by linarith) y hy

/-- **C95.**  Data that are a power law of the time to a merger, as those of a quasicircular binary at leading order, pass
through the filter unchanged, if the least squares find it. -/
theorem C95_chirp (iterate : (ℝ × ℝ × ℝ → Option (List ℝ)) → ℝ × ℝ × ℝ → Py (ℝ × ℝ × ℝ))
    (hex : FindsExact iterate) (base : FilterLib ℝ) (hfit : base.fit = trendFit npPow iterate) (cfg : FilterCfg ℝ)
    (o : FilterObj ℝ) (c : ℝ) (seg : Segment ℝ) (hdT : 0 < o.dT c) (htaper : 0 < cfg.taper) (h1 : 0 < cfg.spinLo)
    (h2 : cfg.spinLo ≤ 1) (h3 : 1 ≤ cfg.spinHi) (h4 : 0 < cfg.eccLo) (h5 : cfg.eccHi ≤ 1) (hs : o.t.Pairwise (· < ·))
    (ts : List ℝ) (tM' A p : ℝ) (hseg : makeSegment cfg o c = .ok (ts, ts.map fun s => A * (tM' - s) ^ p))
    (hlate : ∀ s ∈ ts, s < o.tMerger ∧ s < tM')
    (h : filterSegment (fourierLib base) cfg o c = .ok seg) :
    seg.t = ts ∧ seg.filtered = ts.map fun s => A * (tM' - s) ^ p := by
  obtain ⟨ts', ds, trend, residual, rest, y, fCut, _, _, t0, t1, e1, e2, e3, e4, _, _, _, _, _, _, _, e8, e9, e10, e11, _, _, _, e14⟩ :=
    C94_segment base cfg o c seg hdT htaper h1 h2 h3 h4 h5 hs h
  rw [hseg] at e1
  have e1 := Except.ok.inj e1
  simp only [Prod.mk.injEq] at e1
  obtain ⟨rfl, rfl⟩ := e1
  refine ⟨e2, ?_⟩
  rw [hfit] at e3
  -- the trend leaves no residual
  have hl : ts.length = (ts.map fun s => A * (tM' - s) ^ p).length := by simp
  have hz : ∀ s ∈ ts, trend s = A * (tM' - s) ^ p := by
    unfold trendFit at e3
    split at e3
    · next hc =>
      obtain ⟨q, hq, e3⟩ := bind_ok e3
      have e3 := Except.ok.inj e3
      obtain ⟨v0, hv0⟩ := trendResiduals_defined (pow := npPow) (t := ts) (x := ts.map fun s => A * (tM' - s) ^ p)
        (q := (o.tMerger, (ts.map fun s => A * (tM' - s) ^ p).sum / (ts.map fun s => A * (tM' - s) ^ p).length, o.kind.power))
        fun s hs => ⟨_, npPow_pos (sub_pos.mpr (hlate s hs).1) _⟩
      unfold leastSquares at hq
      rw [hv0] at hq
      dsimp only at hq
      obtain ⟨v1, hv1⟩ := trendResiduals_defined (pow := npPow) (t := ts) (x := ts.map fun s => A * (tM' - s) ^ p)
        (q := (tM', A, p)) fun s hs => ⟨_, npPow_pos (sub_pos.mpr (hlate s hs).2) _⟩
      have hzero : energy v1 = 0 := by
        rw [(trendResiduals_some hl hv1).2]
        unfold energy
        refine List.sum_eq_zero fun b hb => ?_
        obtain ⟨d, hd, rfl⟩ := List.mem_map.mp hb
        obtain ⟨n, hn, rfl⟩ := List.mem_iff_getElem.mp hd
        rw [List.length_zipWith] at hn
        rw [List.getElem_zipWith]
        simp [pnModel, npPow_pos (sub_pos.mpr (hlate _ (List.getElem_mem (show n < ts.length by omega))).2)]
      obtain ⟨v', hv', hz'⟩ := hex _ _ _ _ _ _ hv0 hv1 hzero hq
      have hall := eq_zero_of_energy hz'
      obtain ⟨-, hv'⟩ := trendResiduals_some hl hv'
      intro s hs
      obtain ⟨n, hn, rfl⟩ := List.mem_iff_getElem.mp hs
      have := hall ((List.zipWith (fun s y => y - (pnModel npPow s q.1 q.2.1 q.2.2).getD 0) ts
        (ts.map fun s => A * (tM' - s) ^ p))[n]'(by simp [hn])) (by rw [hv']; exact List.getElem_mem _)
      rw [List.getElem_zipWith, List.getElem_map] at this
      rw [← e3]
      dsimp only
      linarith
    · cases e3
  have hres0 : energy residual = 0 := by
    have : ∀ r ∈ residual, r = 0 := by
      intro r hr
      obtain ⟨n, hn, rfl⟩ := List.mem_iff_getElem.mp hr
      have e := congrArg (fun l => l[n]?) e8
      have hn' : n < ts.length := by omega
      simp only [List.getElem?_map, List.getElem?_zipWith, List.getElem?_eq_getElem hn', List.getElem?_eq_getElem hn,
        Option.map_some, Option.some.injEq, hz _ (List.getElem_mem hn')] at e
      linarith
    unfold energy
    exact List.sum_eq_zero fun b hb => by
      obtain ⟨d, hd, rfl⟩ := List.mem_map.mp hb
      rw [this d hd]; norm_num
  have hrest := eq_zero_of_energy (le_antisymm (e14.trans (le_of_eq hres0)) (energy_nonneg rest))
  rw [e9]
  refine List.ext_getElem (by simp [e11]) fun n q1 q2 => ?_
  rw [List.length_map] at q2
  rw [List.getElem_zipWith, List.getElem_map, List.getElem_map, hz _ (List.getElem_mem q2),
    hrest _ (List.getElem_mem _), add_zero]

/-- There is such an iteration. -/
theorem exists_iterate : ∃ iterate, Descends iterate ∧ FindsExact iterate := by
  classical
  refine ⟨fun f x0 => if h : ∃ q v, f q = some v ∧ energy v = 0 then .ok h.choose else .ok x0, ?_, ?_⟩
  · intro f x0 v0 h0
    by_cases h : ∃ q v, f q = some v ∧ energy v = 0
    · obtain ⟨v, hv, he⟩ := h.choose_spec
      exact ⟨h.choose, v, dif_pos h, hv, by rw [he]; exact energy_nonneg v0⟩
    · exact ⟨x0, v0, dif_neg h, h0, le_refl _⟩
  · intro f x0 v0 q v r _ hq he hr
    have h : ∃ q v, f q = some v ∧ energy v = 0 := ⟨q, v, hq, he⟩
    dsimp only at hr
    rw [dif_pos h] at hr
    cases hr
    exact h.choose_spec

/-- Three samples of a chirp, before a merger at time 10. -/
noncomputable def TrendDemo.obj : FilterObj ℝ :=
  { t := [0, 1, 2], data := [0, 1, 2].map (fun s => 7 * (11 - s) ^ (-(1 / 3) : ℝ)), kind := .amp, tMerger := 10,
    dT := fun _ => 1 }

/-- It is filtered, and unchanged. -/
example : ∃ base : FilterLib ℝ, ∃ seg, filterSegment (fourierLib base) FourierDemo.cfg
    TrendDemo.obj 1 = .ok seg ∧ seg.filtered = [0, 1, 2].map fun s => 7 * (11 - s) ^ (-(1 / 3) : ℝ) := by
  obtain ⟨iterate, hd, he⟩ := exists_iterate
  have hseg : makeSegment FourierDemo.cfg TrendDemo.obj 1 =
      .ok ([0, 1, 2], [0, 1, 2].map fun s => 7 * (11 - s) ^ (-(1 / 3) : ℝ)) := by
    unfold makeSegment
    simp only [FourierDemo.cfg, TrendDemo.obj, pyGet, pyLast, searchSorted, searchRight]
    norm_num [bind, Except.bind, pure, Except.pure, List.takeWhile]
  have hlt : ∀ s ∈ ([0, 1, 2] : List ℝ), s < 10 ∧ s < 11 := by
    intro s hs
    simp only [List.mem_cons, List.not_mem_nil, or_false] at hs
    rcases hs with rfl | rfl | rfl <;> norm_num
  obtain ⟨trend, _, _, _, hfit, _⟩ := C95_trend iterate hd [0, 1, 2] ([0, 1, 2].map fun s => 7 * (11 - s) ^ (-(1 / 3) : ℝ)) .amp
    10 rfl (by simp) fun s hs => (hlt s hs).1
  obtain ⟨seg, h⟩ := C94_defined { FourierDemo.base with fit := trendFit npPow iterate } FourierDemo.cfg
    TrendDemo.obj 1 _ _ trend (by norm_num [TrendDemo.obj]) (by norm_num [FourierDemo.cfg]) (by norm_num [FourierDemo.cfg])
    (by norm_num [FourierDemo.cfg]) (by norm_num [FourierDemo.cfg]) (by norm_num [FourierDemo.cfg])
    (by norm_num [FourierDemo.cfg]) (by norm_num [FourierDemo.cfg]) hseg (by simp) (by simp) (by norm_num) hfit
  refine ⟨_, seg, h, ?_⟩
  exact (C95_chirp iterate he { FourierDemo.base with fit := trendFit npPow iterate } rfl FourierDemo.cfg _ 1 seg
    (by norm_num [TrendDemo.obj]) (by norm_num [FourierDemo.cfg]) (by norm_num [FourierDemo.cfg])
    (by norm_num [FourierDemo.cfg]) (by norm_num [FourierDemo.cfg]) (by norm_num [FourierDemo.cfg])
    (by norm_num [FourierDemo.cfg]) (by norm_num [TrendDemo.obj]) _ 11 7 (-(1 / 3)) hseg hlt h).2

end GwEcc.Filter

namespace GwEcc

open GwEcc.Filter GwEcc.Spec

section whole
variable {K C : Type} [Field K] [LinearOrder K] [IsStrictOrderedRing K] [FloorRing K]

theorem loadWave_processed {lib : Libs K C} {a : Call K C} {nd : DataV K C} {an : Analysis K} {w : Wave K}
    (h : loadWave lib a = .ok (nd, an, w)) :
    processData lib.wave a.precessing a.frame a.dataDict a.numOrbits = .ok (nd, an) ∧ nd.get? "t" = some (.arr w.t) := by
  unfold loadWave at h
  obtain ⟨_, _, h⟩ := bind_ok h
  obtain ⟨⟨nd', an'⟩, h1, h⟩ := bind_ok h
  dsimp only at h
  obtain ⟨t, h2, h⟩ := bind_ok h
  obtain ⟨_, _, h⟩ := bind_ok h
  obtain ⟨⟨amp, phase, omega⟩, _, h⟩ := bind_ok h
  cases h
  exact ⟨h1, getArr_ok h2⟩

/-- **C95 (violation).**  The documentation says that with `num_orbits_to_exclude_before_merger=None` the whole waveform, even
after the merger, is used, and asks to use it for waveforms without a merger.  For a precessing system such a call always
raises: if the total amplitude has a peak inside the data, or grows until their end, the times reach the merger time, and
there the post-Newtonian trend is not finite. -/
theorem C95_merger_violation (fuel : ℕ) (lib : Libs K C) (a : Call K C) (pow : K → K → Option K)
    (iterate : (K × K × K → Option (List K)) → K × K × K → Py (K × K × K)) (hfit : lib.filter.fit = trendFit pow iterate)
    (hpow : ∀ b ≤ 0, ∀ k : Kind, pow b k.power = none) (hp : a.precessing.truth = true) (hn : a.numOrbits = none)
    (nd : DataV K C) (an : Analysis K) (w : Wave K) (hl : loadWave lib a = .ok (nd, an, w)) (m : Dict LM (List K))
    (total : List K) (hm : nd.get? "amplm" = some (.modesR m)) (ht : lib.wave.totalAmp (m.map Prod.snd) = .ok total)
    (hpeak : MergerOrGrowth w.t total) :
    ∃ e, run fuel lib a = some (.error e) := by
  obtain ⟨h1, h2⟩ := loadWave_processed hl
  obtain ⟨v', full, _, _, _, h4, h5⟩ := processData_ok h1
  obtain ⟨t, tot, m', x, mi, amp, phase, omega, pm, om, p0, g1, g2, g3, g4, _, _, _, _, _, _, _, _, _, g14⟩ :=
    (analyse_spec h4).parts
  have hf : nd = full := by
    rcases g14 with ⟨_, hc⟩ | ⟨q, idx, hq, _⟩
    · rcases h5 with ⟨_, rfl⟩ | ⟨idx, h5, _⟩
      · rfl
      · rw [hc] at h5; cases h5
    · rw [hn] at hq; cases hq
  subst hf
  rw [h2] at g1
  cases g1
  rw [hm] at g2
  cases g2
  rw [ht] at g3
  cases g3
  obtain ⟨y, hy, hyM⟩ := peakTime_inside hpeak g4
  unfold run
  split
  · exact ⟨_, rfl⟩
  unfold construct
  rw [hl]
  dsimp only
  unfold filterStage
  rw [if_pos hp]
  split
  · exact ⟨_, rfl⟩
  · next kw cfg mm hin =>
    have hmt : mm.t = w.t := by
      unfold filterInput at hin
      obtain ⟨_, _, hin⟩ := bind_ok hin
      obtain ⟨_, _, hin⟩ := bind_ok hin
      obtain ⟨_, hc, hin⟩ := bind_ok hin
      cases hin
      unfold coprModes at hc
      obtain ⟨_, _, hc⟩ := bind_ok hc
      obtain ⟨_, _, hc⟩ := bind_ok hc
      obtain ⟨_, _, hc⟩ := bind_ok hc
      obtain ⟨_, _, hc⟩ := bind_ok hc
      obtain ⟨_, _, hc⟩ := bind_ok hc
      obtain ⟨_, _, hc⟩ := bind_ok hc
      cases hc
      rfl
    have hk : ∀ kind, filterKind fuel lib.filter cfg an.tMerger mm kind = some (.error .valueError) := fun kind =>
      filterKind_late fun d k => by
        rw [hfit, hmt]
        exact trendFit_late hpow hy hyM
    unfold checkAndFilter
    rw [hk]
    exact ⟨_, rfl⟩

/-- **C95 (what holds).**  If a number of orbits before the merger is excluded (also zero), the times increase and the phase
does not decrease, then all samples that are kept are before the merger, and the trend can be fitted to any of them.  Missing:
calls that exclude nothing, see `C95_merger_violation`. -/
theorem C95_before_partial (lib : Libs K C) (a : Call K C) (n : K) (pow : K → K → Option K)
    (iterate : (K × K × K → Option (List K)) → K × K × K → Py (K × K × K))
    (hit : ∀ f x0 v0, f x0 = some v0 → ∃ r, iterate f x0 = .ok r)
    (hpow : ∀ b > 0, ∀ k : Kind, ∃ y, pow b k.power = some y) (hn : a.numOrbits = some n) (hpi : 0 ≤ lib.wave.pi)
    (nd : DataV K C) (an : Analysis K) (w : Wave K) (hl : loadWave lib a = .ok (nd, an, w))
    (hinc : ∀ full r amp phase omega, processData lib.wave a.precessing a.frame a.dataDict none = .ok (full, r) →
      gwQuantities a.precessing.truth full "" = .ok (amp, phase, omega) → phase.Pairwise (· ≤ ·))
    (htime : ∀ full r t, processData lib.wave a.precessing a.frame a.dataDict none = .ok (full, r) →
      Spec.array full "t" = some t → t.Pairwise (· < ·)) :
    (∀ x ∈ w.t, x < an.tMerger) ∧
      ∀ ts xs kind, (∀ s ∈ ts, s ∈ w.t) → ts.length = xs.length → xs ≠ [] →
        ∃ trend, trendFit pow iterate ts xs kind an.tMerger = .ok trend := by
  obtain ⟨h1, h2⟩ := loadWave_processed hl
  rw [hn] at h1
  obtain ⟨full, phase, pm, e1, e2⟩ := C20_cut_applies lib.wave a.precessing a.frame a.dataDict nd an n h1
  have c := C20_cut lib.wave a.precessing a.frame a.dataDict full _ n phase pm e1 e2
  have hok : (∃ p0, phase[0]? = some p0 ∧ p0 ≤ pm - 4 * lib.wave.pi * n) ∧ 0 ≤ n := by
    by_contra hno
    obtain ⟨err, he⟩ := c.2 hno
    rw [h1] at he; cases he
  obtain ⟨nd1, idx, f1, f2, f3, _⟩ := c.1 hok
  rw [h1] at f1
  simp only [Except.ok.injEq, Prod.mk.injEq] at f1
  obtain ⟨rfl, hc⟩ := f1
  obtain ⟨t, mi, amp, omega, q1, q2, q3, q4⟩ := e2
  have hph := hinc full _ amp phase omega e1 q3
  have htt := htime full _ t e1 q1
  have hwt : w.t = t.take idx := by
    have := f3 t q1
    unfold Spec.array at this
    rw [h2] at this
    exact Option.some.inj this
  -- the cut is not after the merger
  have hidx : idx ≤ mi := by
    by_contra hlt
    push Not at hlt
    obtain ⟨hi1, hi2, hi3⟩ := f2
    obtain ⟨hm1, hm2⟩ := List.getElem?_eq_some_iff.mp q4
    have a1 := hi3 mi hm1 hlt
    have a2 := List.pairwise_iff_getElem.mp hph mi idx hm1 hi1 hlt
    have a3 : 0 ≤ 4 * lib.wave.pi * n := by have := mul_nonneg hpi hok.2; linarith
    rw [hm2] at a1 a2
    rw [abs_of_nonneg (by linarith), abs_of_nonneg (by linarith)] at a1
    linarith
  have hlt : ∀ x ∈ w.t, x < an.tMerger := by
    intro x hx
    rw [hwt] at hx
    obtain ⟨j, hj, rfl⟩ := List.mem_iff_getElem.mp hx
    rw [List.length_take] at hj
    rw [List.getElem_take]
    obtain ⟨hm1, hm2, hm3⟩ := q2
    have a1 := hm3 j (by omega) (by omega)
    have a2 := List.pairwise_iff_getElem.mp htt j mi (by omega) hm1 (by omega)
    by_contra hge
    push Not at hge
    rw [abs_of_nonneg (by linarith), abs_of_nonneg (by linarith)] at a1
    linarith
  refine ⟨hlt, fun ts xs kind hsub hlen hne => ?_⟩
  obtain ⟨v0, hv0⟩ := trendResiduals_defined (pow := pow) (t := ts) (x := xs)
    (q := (an.tMerger, xs.sum / xs.length, kind.power)) fun s hs => hpow _ (sub_pos.mpr (hlt s (hsub s hs))) _
  obtain ⟨r, hr⟩ := hit _ _ _ hv0
  unfold trendFit
  rw [if_pos ⟨hlen, hne⟩]
  unfold leastSquares
  rw [hv0]
  dsimp only
  rw [hr, ok_bind]
  exact ⟨_, rfl⟩

end whole

end GwEcc

/-! ### A precessing system -/

namespace GwEcc.TrendDemo

open GwEcc.Filter

/-- A stand-in for the power: not finite for bases that are not positive. -/
def pow (b _ : ℚ) : Option ℚ := if b ≤ 0 then none else some 1

/-- The library of `RunDemo` with the fit of the trend as it is in the code. -/
def lib : Libs ℚ (ℚ × ℚ) :=
  { RunDemo.lib with filter := { RunDemo.lib.filter with fit := trendFit pow fun _ x0 => .ok x0 } }

def times : List ℚ := (List.range 26).map fun i : ℕ => (i : ℚ)
def wiggle : List ℚ := (List.range 26).map fun i : ℕ =>
  if i < 19 then (i : ℚ) / 50 + (if i % 4 = 2 then 1 else if i % 4 = 0 then -1 else 0) else 10 - (22 - (i : ℚ)) ^ 2
def amps : List ℚ := wiggle.map (5 + ·)
def omegas : List ℚ := wiggle.map (8 + ·)
def phases : List ℚ := times.map fun x => 4 * x + x ^ 2 / 100
def ripple : List ℚ := (List.range 26).map fun i : ℕ => if i % 2 = 0 then 1 / 100 else -1 / 100

/-- The largest amplitude is at sample 22 of 26. -/
def call (n : Option ℚ) : Call ℚ (ℚ × ℚ) :=
  { RunDemo.callP with
    numOrbits := n
    dataDict := [("t", .arr times),
      ("amplm", .modesR [((2, 2), List.zipWith (· + ·) amps ripple), ((2, -2), List.zipWith (· - ·) amps ripple)]),
      ("phaselm", .modesR [((2, 2), phases), ((2, -2), phases.map (- ·))]),
      ("omegalm", .modesR [((2, 2), List.zipWith (· + ·) omegas ripple),
        ((2, -2), List.zipWith (fun w r => r - w) omegas ripple)])] }

/-- Excluding one orbit gives an answer, excluding nothing raises. -/
example : RunDemo.ecc (run 60 lib (call (some 1))) = some (.ok (some (.array [10 / 81, 25 / 204]))) := by decide +kernel
example : RunDemo.err (run 60 lib (call none)) = some (some .valueError) := by decide +kernel

theorem peak : Spec.MergerOrGrowth times (List.zipWith (· + ·) amps ripple) :=
  ⟨times.take 20, times.drop 25, (List.zipWith (· + ·) amps ripple).take 20, (List.zipWith (· + ·) amps ripple).drop 25, 22, 1,
    11 + 1 / 100, 14 - 1 / 100, 15 + 1 / 100, 14 - 1 / 100, 11 + 1 / 100, by norm_num, by decide +kernel, by decide +kernel,
    by decide +kernel, by decide +kernel,
    Or.inl ⟨by decide +kernel, by decide +kernel, by norm_num, by norm_num⟩⟩

/-- The hypotheses of the violation are met. -/
example : ∃ nd an w m total, loadWave lib (call none) = .ok (nd, an, w) ∧ nd.get? "amplm" = some (.modesR m) ∧
    lib.wave.totalAmp (m.map Prod.snd) = .ok total ∧ Spec.MergerOrGrowth w.t total := by
  have h : (match loadWave lib (call none) with
    | .ok (nd, _, w) => (match nd.get? "amplm" with
      | some (.modesR m) => decide (w.t = times ∧ (match lib.wave.totalAmp (m.map Prod.snd) with
        | .ok total => decide (total = List.zipWith (· + ·) amps ripple)
        | .error _ => false) = true)
      | _ => false)
    | .error _ => false) = true := by decide +kernel
  split at h
  · next nd an w hl =>
    split at h
    · next m hm =>
      obtain ⟨h1, h2⟩ := of_decide_eq_true h
      split at h2
      · next total ht =>
        exact ⟨nd, an, w, m, total, hl, hm, ht, by rw [h1, of_decide_eq_true h2]; exact peak⟩
      · cases h2
    · cases h
  · cases h

/-- So are those of the theorem before it, for the call that excludes an orbit. -/
example : (∀ full r amp phase omega, processData lib.wave (call (some 1)).precessing (call (some 1)).frame
      (call (some 1)).dataDict none = .ok (full, r) →
      gwQuantities (call (some 1)).precessing.truth full "" = .ok (amp, phase, omega) → phase.Pairwise (· ≤ ·)) ∧
    (∀ full r t, processData lib.wave (call (some 1)).precessing (call (some 1)).frame (call (some 1)).dataDict none =
      .ok (full, r) → Spec.array full "t" = some t → t.Pairwise (· < ·)) ∧
    ∃ x, loadWave lib (call (some 1)) = .ok x := by
  refine ⟨fun full r amp phase omega h1 h2 => ?_, fun full r t h1 h2 => ?_, ?_⟩
  · have h : (match processData lib.wave (call (some 1)).precessing (call (some 1)).frame (call (some 1)).dataDict none with
      | .ok (full, _) => (match gwQuantities (call (some 1)).precessing.truth full "" with
        | .ok (_, phase, _) => decide (phase.Pairwise (· ≤ ·))
        | .error _ => true)
      | .error _ => true) = true := by decide +kernel
    rw [h1] at h
    dsimp only at h
    rw [h2] at h
    exact of_decide_eq_true h
  · have h : (match processData lib.wave (call (some 1)).precessing (call (some 1)).frame (call (some 1)).dataDict none with
      | .ok (full, _) => (match Spec.array full "t" with
        | some t => decide (t.Pairwise (· < ·))
        | none => true)
      | .error _ => true) = true := by decide +kernel
    rw [h1] at h
    dsimp only at h
    rw [h2] at h
    exact of_decide_eq_true h
  · have h : (match loadWave lib (call (some 1)) with
      | .ok _ => true
      | .error _ => false) = true := by decide +kernel
    split at h
    · next x hx => exact ⟨x, hx⟩
    · cases h

end GwEcc.TrendDemo
