import Verif.Props.SpinCombine

/-!
# C45: when the filter is applied, and what is kept
-/

set_option linter.unusedSectionVars false

namespace GwEcc.Filter

open GwEcc.Spec

section decision
variable {K : Type} [Field K] [LinearOrder K] [IsStrictOrderedRing K] [FloorRing K]

/-- The decision for a data type, as the documentation states it: filtering is required by the check, on the data type chosen for
the check, and not switched off. -/
def Filtered (lib : FilterLib K) (cfg : FilterCfg K) (tMerger : K) (m : CoprModes K) (kind : Kind) : Prop :=
  cfg.doNotFilter = false ∧ checkRequirement lib cfg.threshold tMerger (cfg.kindForCheck.getD kind) m.t
    (m.get (cfg.kindForCheck.getD kind)).1 (m.get (cfg.kindForCheck.getD kind)).2 = .ok true

theorem makeFilter_ok {lib : FilterLib K} {cfg : FilterCfg K} {tM : K} {m : CoprModes K} {kind : Kind} {d : List K}
    {o : Option (FilterObj K)} (h : makeFilter lib cfg tM m kind = .ok (d, o)) :
    original m kind = .ok d ∧ ∃ b, checkRequirement lib cfg.threshold tM (cfg.kindForCheck.getD kind) m.t
      (m.get (cfg.kindForCheck.getD kind)).1 (m.get (cfg.kindForCheck.getD kind)).2 = .ok b ∧
      (b = false ∧ o = none ∨ b = true ∧ ∃ f, o = some ⟨m.t, d, kind, tM, f⟩) := by
  unfold makeFilter at h
  obtain ⟨d', h1, h⟩ := bind_ok h
  dsimp only at h
  obtain ⟨b, h2, h⟩ := bind_ok h
  cases b with
  | false =>
    rw [if_pos (by rfl)] at h
    cases h
    exact ⟨h1, false, h2, Or.inl ⟨rfl, rfl⟩⟩
  | true =>
    rw [if_neg (by simp)] at h
    obtain ⟨⟨tc, tMid, dT⟩, _, h⟩ := bind_ok h
    dsimp only at h
    have key : d' = d ∧ ∃ f, o = some ⟨m.t, d', kind, tM, f⟩ := by
      split at h
      · obtain ⟨_, _, h⟩ := bind_ok h
        obtain ⟨f, _, h⟩ := bind_ok h
        cases h
        exact ⟨rfl, f, rfl⟩
      · obtain ⟨f, _, h⟩ := bind_ok h
        cases h
        exact ⟨rfl, f, rfl⟩
    obtain ⟨rfl, f, rfl⟩ := key
    exact ⟨h1, true, h2, Or.inr ⟨rfl, f, rfl⟩⟩

/-- One data type: what a result consists of. -/
theorem filterKind_ok {fuel : ℕ} {lib : FilterLib K} {cfg : FilterCfg K} {tM : K} {m : CoprModes K} {kind : Kind} {b : Best K}
    (h : filterKind fuel lib cfg tM m kind = some (.ok b)) :
    original m kind = .ok b.original ∧
      (¬ Filtered lib cfg tM m kind ∧ b.filtered = none ∧ b.best = b.original ∨
        Filtered lib cfg tM m kind ∧ b.filtered = some b.best ∧ ∃ f,
          applyFilter fuel lib cfg ⟨m.t, b.original, kind, tM, f⟩ = some (.ok b.best)) := by
  unfold filterKind at h
  split at h
  · cases h
  · rename_i d hm
    obtain ⟨h1, r, h2, h3⟩ := makeFilter_ok hm
    cases h
    refine ⟨h1, Or.inl ⟨fun hc => ?_, rfl, rfl⟩⟩
    rcases h3 with ⟨rfl, _⟩ | ⟨_, f, hf⟩
    · have := hc.2.symm.trans h2
      cases this
    · cases hf
  · rename_i d o hm
    obtain ⟨h1, r, h2, h3⟩ := makeFilter_ok hm
    rcases h3 with ⟨_, hn⟩ | ⟨rfl, f, hf⟩
    · cases hn
    · cases hf
      split at h
      · rename_i hd
        obtain ⟨_, _, h⟩ := bind_ok (Option.some.inj h)
        cases h
        exact ⟨h1, Or.inl ⟨fun hc => absurd hc.1 (by simp [hd]), rfl, rfl⟩⟩
      · rename_i hd
        obtain ⟨r, hr, h⟩ := Option.map_eq_some_iff.mp h
        obtain ⟨v, rfl, h⟩ := bind_ok h
        cases h
        exact ⟨h1, Or.inr ⟨⟨by simpa using hd, h2⟩, rfl, f, hr⟩⟩

theorem checkAndFilter_ok {fuel : ℕ} {lib : FilterLib K} {cfg : FilterCfg K} {tM : K} {m : CoprModes K} {out : FilterOut K}
    (h : checkAndFilter fuel lib cfg tM m = some (.ok out)) :
    filterKind fuel lib cfg tM m .amp = some (.ok out.amp) ∧ filterKind fuel lib cfg tM m .omega = some (.ok out.omega) ∧
      filterPhase m out.omega = .ok out.phase := by
  unfold checkAndFilter at h
  split at h
  · cases h
  · cases h
  · rename_i a ha
    split at h
    · cases h
    · cases h
    · rename_i w hw
      obtain ⟨p, hp, h⟩ := bind_ok (Option.some.inj h)
      cases h
      exact ⟨ha, hw, hp⟩

/-- The phase: what a result consists of. -/
theorem filterPhase_ok {m : CoprModes K} {w p : Best K} (h : filterPhase m w = .ok p) :
    npZip (fun x y => 1 / 2 * (x - y)) m.phase22 m.phase2m2 = .ok p.original ∧
      (w.filtered = none ∧ p.filtered = none ∧ p.best = p.original ∨
        ∃ f t0 t1, w.filtered = some f ∧ m.t[0]? = some t0 ∧ m.t[1]? = some t1 ∧
          p.best = (cumsum f).map (· * (t1 - t0)) ∧ p.filtered = some p.best) := by
  unfold filterPhase at h
  obtain ⟨q, h1, h⟩ := bind_ok h
  dsimp only at h
  split at h
  · rename_i f hf
    obtain ⟨t1, e1, h⟩ := bind_ok h
    obtain ⟨t0, e0, h⟩ := bind_ok h
    cases h
    exact ⟨h1, Or.inr ⟨f, t0, t1, hf, pyGet_getElem? e0, pyGet_getElem? e1, rfl, rfl⟩⟩
  · rename_i hf
    cases h
    exact ⟨h1, Or.inl ⟨hf, rfl, rfl⟩⟩

/-- **C45.**  The unfiltered quantities are always available: they are the combinations of the (2, 2) and (2, -2) modes that are
used without the filter, namely the mean of the amplitudes and the antisymmetric means of frequency and phase. -/
theorem C45_originals {fuel : ℕ} {lib : FilterLib K} {cfg : FilterCfg K} {tM : K} {m : CoprModes K} {out : FilterOut K}
    (h : checkAndFilter fuel lib cfg tM m = some (.ok out)) :
    m.amp22.length = m.amp2m2.length ∧ out.amp.original = List.zipWith (fun x y => (x + y) / 2) m.amp22 m.amp2m2 ∧
    m.omega22.length = m.omega2m2.length ∧ out.omega.original = List.zipWith (fun x y => (x - y) / 2) m.omega22 m.omega2m2 ∧
    m.phase22.length = m.phase2m2.length ∧ out.phase.original = List.zipWith (fun x y => (x - y) / 2) m.phase22 m.phase2m2 := by
  obtain ⟨h1, h2, h3⟩ := checkAndFilter_ok h
  have a := (filterKind_ok h1).1
  have w := (filterKind_ok h2).1
  have p := (filterPhase_ok h3).1
  unfold original npZip at a w
  unfold npZip at p
  obtain ⟨a1, a2⟩ := ite_cases' a
  obtain ⟨w1, w2⟩ := ite_cases' w
  obtain ⟨p1, p2⟩ := ite_cases' p
  refine ⟨a1, ?_, w1, ?_, p1, ?_⟩
  · rw [← a2]
    congr 1
    funext x y
    simp only [Kind.sign]
    ring
  · rw [← w2]
    congr 1
    funext x y
    simp only [Kind.sign]
    ring
  · rw [← p2]
    congr 1
    funext x y
    ring
where
  ite_cases' {c : Prop} [Decidable c] {a b : List K} {e : Err}
      (h : (if c then (.ok a : Py (List K)) else .error e) = .ok b) : c ∧ a = b := by
    by_cases hc : c
    · rw [if_pos hc] at h
      cases h
      exact ⟨hc, rfl⟩
    · rw [if_neg hc] at h
      cases h

/-- **C45.**  A quantity that need not be filtered, or with filtering switched off, is the unfiltered one, whatever the decision
about the other quantity; a filtered one is flagged as such.  The phase follows the frequency. -/
theorem C45_decision {fuel : ℕ} {lib : FilterLib K} {cfg : FilterCfg K} {tM : K} {m : CoprModes K} {out : FilterOut K}
    (h : checkAndFilter fuel lib cfg tM m = some (.ok out)) :
    (¬ Filtered lib cfg tM m .amp → out.amp.best = out.amp.original ∧ out.amp.filtered = none) ∧
    (Filtered lib cfg tM m .amp → out.amp.filtered = some out.amp.best) ∧
    (¬ Filtered lib cfg tM m .omega → out.omega.best = out.omega.original ∧ out.omega.filtered = none ∧
      out.phase.best = out.phase.original ∧ out.phase.filtered = none) ∧
    (Filtered lib cfg tM m .omega → out.omega.filtered = some out.omega.best ∧ out.phase.filtered = some out.phase.best) := by
  obtain ⟨h1, h2, h3⟩ := checkAndFilter_ok h
  have a := (filterKind_ok h1).2
  have w := (filterKind_ok h2).2
  have p := (filterPhase_ok h3).2
  refine ⟨fun hn => ?_, fun hn => ?_, fun hn => ?_, fun hn => ?_⟩
  · rcases a with ⟨_, a1, a2⟩ | ⟨ha, _⟩
    · exact ⟨a2, a1⟩
    · exact absurd ha hn
  · rcases a with ⟨ha, _⟩ | ⟨_, a1, _⟩
    · exact absurd hn ha
    · exact a1
  · rcases w with ⟨_, w1, w2⟩ | ⟨hw, _⟩
    · rcases p with ⟨_, p1, p2⟩ | ⟨f, _, _, hf, _⟩
      · exact ⟨w2, w1, p2, p1⟩
      · rw [w1] at hf
        cases hf
    · exact absurd hw hn
  · rcases w with ⟨hw, _⟩ | ⟨_, w1, _⟩
    · exact absurd hn hw
    · rcases p with ⟨hf, _⟩ | ⟨_, _, _, _, _, _, _, p2⟩
      · rw [w1] at hf
        cases hf
      · exact ⟨w1, p2⟩

/-- **C45.**  A filtered quantity is the unfiltered one of the same kind, cut into segments that are filtered one by one and
recombined (`C44`, `C94`): one value per sample. -/
theorem C45_filtered {fuel : ℕ} {lib : FilterLib K} {cfg : FilterCfg K} {tM : K} {m : CoprModes K} {out : FilterOut K}
    (hw : IsWindow lib.hanning) (hs : m.t.Pairwise (· < ·)) (hseg : 0 < cfg.segmentSize) (ha : 0 < cfg.alpha)
    (h : checkAndFilter fuel lib cfg tM m = some (.ok out)) (kind : Kind) (hf : Filtered lib cfg tM m kind) :
    let q := match kind with | .amp => out.amp | .omega => out.omega
    q.best.length = m.t.length ∧ ∃ dT segs, segments fuel lib cfg ⟨m.t, q.original, kind, tM, dT⟩ = some (.ok segs) ∧
      combine lib.hanning m.t segs = .ok q.best := by
  obtain ⟨h1, h2, _⟩ := checkAndFilter_ok h
  have key : ∀ b : Best K, filterKind fuel lib cfg tM m kind = some (.ok b) →
      b.best.length = m.t.length ∧ ∃ dT segs, segments fuel lib cfg ⟨m.t, b.original, kind, tM, dT⟩ = some (.ok segs) ∧
        combine lib.hanning m.t segs = .ok b.best := by
    intro b hb
    rcases (filterKind_ok hb).2 with ⟨hn, _⟩ | ⟨_, _, f, hr⟩
    · exact absurd hf hn
    · obtain ⟨segs, _, e1, _, _, e2, e3, _⟩ := C44_applyFilter hw hs hseg ha hr
      exact ⟨e3, f, segs, e1, e2⟩
  cases kind with
  | amp => exact key _ h1
  | omega => exact key _ h2

/-- **C45.**  Switching the filter off leaves all quantities as they are without it. -/
theorem C45_switched_off {fuel : ℕ} {lib : FilterLib K} {cfg : FilterCfg K} {tM : K} {m : CoprModes K} {out : FilterOut K}
    (hd : cfg.doNotFilter = true) (h : checkAndFilter fuel lib cfg tM m = some (.ok out)) :
    out.amp.best = out.amp.original ∧ out.omega.best = out.omega.original ∧ out.phase.best = out.phase.original := by
  obtain ⟨h1, _, h3, _⟩ := C45_decision h
  have hn : ∀ kind, ¬ Filtered lib cfg tM m kind := by
    rintro kind ⟨hc, _⟩
    rw [hd] at hc
    cases hc
  exact ⟨(h1 (hn _)).1, (h3 (hn _)).1, (h3 (hn _)).2.2.1⟩

/-- **C45.**  The amplitude that is returned does not depend on frequency and phase, and the frequency that is returned does not
depend on the amplitude, unless the options ask for the other data type. -/
theorem C45_independent {fuel : ℕ} {lib : FilterLib K} {cfg : FilterCfg K} {tM : K} {m m' : CoprModes K} {out out' : FilterOut K}
    (hc : cfg.kindForCheck = none) (hs : cfg.kindForSpin = none) (ht : m.t = m'.t)
    (h : checkAndFilter fuel lib cfg tM m = some (.ok out)) (h' : checkAndFilter fuel lib cfg tM m' = some (.ok out')) :
    (m.amp22 = m'.amp22 → m.amp2m2 = m'.amp2m2 → out.amp = out'.amp) ∧
    (m.omega22 = m'.omega22 → m.omega2m2 = m'.omega2m2 → out.omega = out'.omega) := by
  have key : ∀ kind, m.get kind = m'.get kind → filterKind fuel lib cfg tM m kind = filterKind fuel lib cfg tM m' kind := by
    intro kind hk
    unfold filterKind makeFilter original
    simp only [hc, hs, Option.getD_none, hk, ht]
  obtain ⟨h1, h2, _⟩ := checkAndFilter_ok h
  obtain ⟨g1, g2, _⟩ := checkAndFilter_ok h'
  constructor
  · intro e1 e2
    have := key .amp (by unfold CoprModes.get; rw [e1, e2])
    rw [h1, g1] at this
    exact Except.ok.inj (Option.some.inj this)
  · intro e1 e2
    have := key .omega (by unfold CoprModes.get; rw [e1, e2])
    rw [h2, g2] at this
    exact Except.ok.inj (Option.some.inj this)

theorem cumsum_step {l : List K} {i : ℕ} {a b x : K} (ha : (cumsum l)[i]? = some a) (hb : (cumsum l)[i + 1]? = some b)
    (hx : l[i + 1]? = some x) : b - a = x := by
  have hget : ∀ (j : ℕ) (v : K), (cumsum l)[j]? = some v → v = (l.take (j + 1)).sum := by
    intro j v hv
    unfold cumsum at hv
    rw [List.getElem?_map] at hv
    obtain ⟨k, hk, rfl⟩ := Option.map_eq_some_iff.mp hv
    obtain ⟨hlt, e⟩ := List.getElem?_eq_some_iff.mp hk
    rw [List.getElem_range] at e
    rw [e]
  rw [hget i a ha, hget (i + 1) b hb, List.take_succ (i := i + 1), hx]
  simp

/-- **C45.**  With a filtered frequency the phase is its integral: between neighbouring samples of a uniformly sampled waveform the
phase grows by the filtered frequency times the time step. -/
theorem C45_phase_integral {fuel : ℕ} {lib : FilterLib K} {cfg : FilterCfg K} {tM dt : K} {m : CoprModes K} {out : FilterOut K}
    (h : checkAndFilter fuel lib cfg tM m = some (.ok out)) (hf : Filtered lib cfg tM m .omega)
    (hdt : ∀ (i : ℕ) (a b : K), m.t[i]? = some a → m.t[i + 1]? = some b → b - a = dt) :
    out.phase.best.length = out.omega.best.length ∧ ∀ (i : ℕ) (a b w : K), out.phase.best[i]? = some a →
      out.phase.best[i + 1]? = some b → out.omega.best[i + 1]? = some w → b - a = w * dt := by
  obtain ⟨_, h2, h3⟩ := checkAndFilter_ok h
  have hw := ((C45_decision h).2.2.2 hf).1
  rcases (filterPhase_ok h3).2 with ⟨hn, _⟩ | ⟨f, t0, t1, e, e0, e1, p1, _⟩
  · rw [hn] at hw
    cases hw
  · rw [hw] at e
    cases e
    have hd := hdt 0 t0 t1 e0 e1
    refine ⟨by rw [p1]; simp [cumsum], fun i a b w ha hb hwi => ?_⟩
    rw [p1, List.getElem?_map] at ha hb
    obtain ⟨a', ha', rfl⟩ := Option.map_eq_some_iff.mp ha
    obtain ⟨b', hb', rfl⟩ := Option.map_eq_some_iff.mp hb
    rw [hd, ← cumsum_step ha' hb' hwi]
    ring

/-- Values of the signs of a zero difference do not change. -/
theorem intersections_symmetric (t x : List K) : intersections t x x = .error .valueError := by
  unfold intersections npZip
  rw [if_pos rfl, ok_bind]
  have e : (List.zipWith (· - ·) x x).map sgn = List.replicate x.length 0 := by
    rw [List.eq_replicate_iff]
    refine ⟨by simp, fun s hs => ?_⟩
    obtain ⟨d, hd, rfl⟩ := List.mem_map.mp hs
    obtain ⟨k, hk⟩ := List.getElem?_of_mem hd
    rw [List.getElem?_zipWith] at hk
    cases hx : x[k]? with
    | none => rw [hx] at hk; cases hk
    | some v =>
      rw [hx] at hk
      cases hk
      simp [sgn]
  rw [e]
  have hd : npWhere (fun s : ℤ => decide (s ≠ 0)) (diff (List.replicate x.length (0 : ℤ))) = [] := by
    rw [List.eq_nil_iff_forall_not_mem]
    intro i hi
    obtain ⟨hlt, hne⟩ := (mem_npWhere _ _ _).mp hi
    have hv := List.getElem?_eq_getElem hlt
    revert hne hv
    generalize (diff (List.replicate x.length (0 : ℤ)))[i] = v
    intro hne hv
    have : v = 0 := by
      have hm := List.mem_of_getElem? hv
      clear hv hlt hi hne e
      generalize x.length = n at hm
      induction n with
      | zero => simp [diff] at hm
      | succ n ih =>
        cases n with
        | zero => simp [diff] at hm
        | succ n =>
          simp only [List.replicate_succ, diff, List.mem_cons, sub_self] at hm ih
          rcases hm with hm | hm
          · exact hm
          · exact ih hm
    simp [this] at hne
  rw [hd]
  rfl

/-- **C45 fails for modes without asymmetry.**  A waveform whose (2, 2) and (2, -2) amplitudes agree at every sample has no
spin-induced oscillations and needs no filter, and yet the measurement raises, even with the filter switched off: the check
itself needs two crossings of the amplitudes. -/
theorem C45_symmetric_violation (fuel : ℕ) (lib : FilterLib K) (cfg : FilterCfg K) (tM : K) (m : CoprModes K)
    (hc : cfg.kindForCheck = none) (hsym : m.amp22 = m.amp2m2) (hlen : m.amp22.length = m.t.length)
    (hfit : ∃ f, lib.fit m.t m.amp22 .amp tM = .ok f) :
    checkAndFilter fuel lib cfg tM m = some (.error .valueError) := by
  obtain ⟨f, hf⟩ := hfit
  have h1 : checkRequirement lib cfg.threshold tM .amp m.t m.amp22 m.amp2m2 = .error .valueError := by
    unfold checkRequirement
    have e : m.amp2m2.map ((1 : K) * ·) = m.amp22 := by
      rw [← hsym]
      simp
    dsimp only
    rw [e, intersections_symmetric, ← hsym, hf]
    unfold npZip
    rw [if_pos rfl, ok_bind, ok_bind, if_pos (by simp [hlen]), ok_bind]
    rfl
  have h2 : makeFilter lib cfg tM m .amp = .error .valueError := by
    obtain ⟨d, hd⟩ : ∃ d, original m .amp = .ok d :=
      ⟨_, by unfold original npZip; exact if_pos (congrArg List.length hsym)⟩
    unfold makeFilter
    rw [hc, hd, ok_bind]
    simp only [Option.getD_none]
    change (checkRequirement lib cfg.threshold tM .amp m.t m.amp22 m.amp2m2 >>= _) = _
    rw [h1]
    rfl
  unfold checkAndFilter filterKind
  rw [h2]

/-- **C45.**  Without padding no segment can be filtered: the slice that removes the padding is then empty. -/
theorem C45_no_padding_violation {lib : FilterLib K} {cfg : FilterCfg K} {o : FilterObj K} (hs : o.t.Pairwise (· < ·))
    (h0 : cfg.padding = 0) (c : K) (r : Segment K) : filterSegment lib cfg o c ≠ .ok r := by
  intro h
  obtain ⟨s, hp, h2, _⟩ := filterSegment_ok hs h
  have hl := hp.2.2
  unfold filterSegment at h
  obtain ⟨⟨ts, ds⟩, _, h⟩ := bind_ok h
  dsimp only at h
  obtain ⟨trend, _, h⟩ := bind_ok h
  obtain ⟨residual, _, h⟩ := bind_ok h
  obtain ⟨windowed, _, h⟩ := bind_ok h
  obtain ⟨t1, _, h⟩ := bind_ok h
  obtain ⟨t0, _, h⟩ := bind_ok h
  split at h
  · cases h
  split at h
  · cases h
  obtain ⟨filtered, hf, h⟩ := bind_ok h
  cases h
  rw [h0] at hf
  have hsl : ∀ l : List K, pySlice l ((0 : ℕ) : ℤ) (-((0 : ℕ) : ℤ)) = [] := by
    intro l
    simp [pySlice, pyBound]
  rw [hsl] at hf
  unfold npZip at hf
  split at hf
  · cases hf
    simp at hl
    dsimp only at h2
    omega
  · cases hf

end decision

/-! ### A case

Nine samples; the amplitudes of the two modes oscillate around 2 in antiphase, the frequencies hardly.  The fit to the amplitude is
its mean, the peaks are given, the filter removes the whole residual. -/

namespace Demo

def osc : List ℚ := [1, -1, 1, -1, 1, -1, 1, -1, 1]

def modes : CoprModes ℚ :=
  { t := [0, 1, 2, 3, 4, 5, 6, 7, 8], amp22 := osc.map (2 + ·), amp2m2 := osc.map (2 - ·),
    omega22 := osc.map (3 + · / 10), omega2m2 := osc.map (-3 + · / 10),
    phase22 := [0, 3, 6, 9, 12, 15, 18, 21, 24], phase2m2 := [0, -3, -6, -9, -12, -15, -18, -21, -24] }

/-- A triangular window: zero at both ends. -/
def tri (n : ℕ) : List ℚ := (List.range n).map fun (k : ℕ) => min (k : ℚ) ((n - 1 - k : ℕ) : ℚ)

def lib : FilterLib ℚ :=
  { pi := 22 / 7, cos := fun _ => 0, fit := fun _ _ kind _ => .ok fun _ => if kind = .amp then 2 else 0,
    peaks := fun _ _ => .ok [2, 4], cubic := fun _ _ => .ok fun _ => 1, spectrum := fun l => l.map fun _ => 1,
    lowpass := fun l _ => l.map fun _ => 0, hamming := fun n => List.replicate n 1, hanning := tri }

def cfg : FilterCfg ℚ :=
  { threshold := 1 / 5, alpha := 1, segmentSize := 4, kindForCheck := none, kindForSpin := none, debugLevel := 0,
    doNotFilter := false, padding := 1, taper := 1 / 5, spinLo := 3 / 4, spinHi := 5 / 4, eccLo := 1 / 4, eccHi := 1 / 2 }

/-- The amplitude is filtered, frequency and phase are kept. -/
def out : FilterOut ℚ :=
  { amp := ⟨List.replicate 9 2, List.replicate 9 2, some (List.replicate 9 2)⟩,
    omega := ⟨List.replicate 9 3, List.replicate 9 3, none⟩,
    phase := ⟨modes.phase22, modes.phase22, none⟩ }

def obj : FilterObj ℚ := ⟨modes.t, osc.map (2 + ·), .amp, 8, fun _ => 1⟩

theorem tri_window : IsWindow tri := by
  intro n
  refine ⟨by simp [tri], fun w hw => ?_⟩
  obtain ⟨k, _, rfl⟩ := List.mem_map.mp hw
  exact le_min (by positivity) (by positivity)

example : (checkAndFilter 20 lib cfg 8 modes).map Except.toOption = some (some out) := by decide +kernel

example : Filtered lib cfg 8 modes .amp ∧ ¬ Filtered lib cfg 8 modes .omega := by
  constructor
  · have key : ∀ x : Py Bool, x.toOption = some true → x = .ok true := by
      rintro (_ | _) h <;> cases h
      rfl
    exact ⟨rfl, key _ (by decide +kernel)⟩
  · rintro ⟨_, h⟩
    have : (checkRequirement lib cfg.threshold 8 (cfg.kindForCheck.getD .omega) modes.t
      (modes.get (cfg.kindForCheck.getD .omega)).1 (modes.get (cfg.kindForCheck.getD .omega)).2).toOption = some true := by
      rw [h]
      rfl
    revert this
    decide +kernel

/-- Eight segments, the first centred at the first sample. -/
example : (segments 20 lib cfg obj).map (fun r => r.toOption.map fun l => (l.length, l.map fun s => s.t.length)) =
    some (some (8, [3, 4, 5, 5, 5, 5, 5, 4])) := by decide +kernel

/-- The filtered amplitude is 2 at every sample: the oscillation is gone. -/
example : (applyFilter 20 lib cfg obj).map Except.toOption = some (some (List.replicate 9 2)) := by decide +kernel

example : obj.t.Pairwise (· < ·) ∧ 0 < cfg.segmentSize ∧ 0 < cfg.alpha := by decide +kernel

/-- Segments with different values at a sample that both cover, and recombination with the values `(1*1 + 2*1)/2` there. -/
example : (combine tri [0, 1, 2, 3, 4] [⟨[0, 1, 2, 3], [1, 1, 1, 1]⟩, ⟨[1, 2, 3, 4], [2, 2, 2, 2]⟩]).toOption =
    some [1, 1, 3 / 2, 2, 2] := by decide +kernel

/-- Filtering that changes nothing in a segment changes nothing in the covered samples. -/
example : (combine tri [0, 1, 2, 3, 4] [⟨[0, 1, 2, 3], [5, 6, 7, 8]⟩, ⟨[1, 2, 3, 4], [6, 7, 8, 9]⟩]).toOption =
    some [6, 6, 7, 8, 8] := by decide +kernel

example : List.Forall₂ (PlacedAt [(0 : ℚ), 1, 2, 3, 4]) [⟨[0, 1, 2, 3], [5, 6, 7, 8]⟩, ⟨[1, 2, 3, 4], [6, 7, 8, 9]⟩] [0, 1] := by
  refine List.Forall₂.cons ⟨by simp, by decide, rfl⟩ (List.Forall₂.cons ⟨by simp, by decide, rfl⟩ List.Forall₂.nil)

/-- Modes with equal amplitudes: the hypotheses of the violation. -/
example : (checkAndFilter 20 lib { cfg with doNotFilter := true } 8
    { modes with amp22 := List.replicate 9 2, amp2m2 := List.replicate 9 2 }).map Except.toOption = some none := by decide +kernel

/-- Without padding. -/
example : (filterSegment lib { cfg with padding := 0 } obj 4).toOption = none ∧ (filterSegment lib cfg obj 4).toOption ≠ none := by
  decide +kernel

end Demo

end GwEcc.Filter
