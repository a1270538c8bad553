import Verif.Lemmas.Fits

/-!
# C39: the extrema search of the FrequencyFits and AmplitudeFits methods
-/

set_option linter.unusedSectionVars false

namespace GwEcc.Fits

open GwEcc.Spec

section search
variable {K : Type} [Field K] [LinearOrder K] [FloorRing K]

theorem runLoop_congr {S R : Type} {f g : S → S ⊕ R} (I : S → Prop) (hfg : ∀ s, I s → f s = g s)
    (hI : ∀ s s', I s → f s = .inl s' → I s') : ∀ (fuel : ℕ) (s : S), I s → runLoop f fuel s = runLoop g fuel s
  | 0, _, _ => rfl
  | fuel + 1, s, h => by
    rw [runLoop_succ, runLoop_succ, ← hfg s h]
    cases hs : f s with
    | inl s' => exact runLoop_congr I hfg hI fuel s' (hI s s' h hs)
    | inr r => rfl

theorem findNear_fuel {fuel : ℕ} (hf : 22 ≤ fuel) (lib : FitsLib K) (cfg : FitsCfg K) (d : FitsData K) (t0 sign tol : K)
    (bounds : Trend K × Trend K) (n m : ℕ) :
    findNear fuel lib cfg d t0 sign tol bounds n m = findNear 22 lib cfg d t0 sign tol bounds n m := by
  funext ref adv p
  obtain ⟨r, hr⟩ := findNear_terminates (lib := lib) (cfg := cfg) (d := d) (t0 := t0) (sign := sign) (tol := tol)
    (bounds := bounds) (nBefore := n) (nAfter := m) 22 (by omega) ref adv p
  rw [hr]
  unfold findNear at hr ⊢
  dsimp only at hr ⊢
  split
  · rename_i h
    rw [h] at hr
    exact hr
  · rename_i h
    rw [h] at hr
    exact runLoop_mono hr hf

/-- **C39.**  The search ends, with a result or an exception, for every waveform, every option and every behaviour of the
numerical libraries; its result is reached within 10002 passes of each loop. -/
theorem C39_terminates (lib : FitsLib K) (cfg : FitsCfg K) (d : FitsData K) (sign : K) :
    ∃ r, ∀ fuel, 10002 ≤ fuel → findExtrema passLimit fuel lib cfg d sign = some r := by
  unfold findExtrema
  dsimp only
  split
  · exact ⟨_, fun _ _ => rfl⟩
  · rename_i t0 bounds s _
    have hstep : ∀ a b : FindState K, a.count ≤ a.count →
        findBody passLimit (findNear 22 lib cfg d t0 sign (1 / 10 ^ 8) bounds cfg.N (cfg.N + 1)) cfg.N a = .inl b →
        b.count ≤ b.count ∧ passLimit - b.count < passLimit - a.count := by
      intro a b _ h
      have := findBody_count h
      exact ⟨le_refl _, by omega⟩
    obtain ⟨r, hr⟩ := runLoop_term (fun a => a.count ≤ a.count) (fun a => passLimit - a.count) hstep (s := s) (f := 10002)
      (le_refl _) (by unfold passLimit; omega)
    have hne : r ≠ none := by
      refine runLoop_inv (fun _ => True) (fun r => r ≠ none) (fun _ _ _ _ => trivial) ?_ trivial hr
      intro a x _ h
      unfold findBody at h
      dsimp only at h
      split at h
      · rename_i hn
        obtain ⟨q, hq⟩ := findNear_terminates (lib := lib) (cfg := cfg) (d := d) (t0 := t0) (sign := sign)
          (tol := 1 / 10 ^ 8) (bounds := bounds) (nBefore := cfg.N) (nAfter := cfg.N + 1) 22 (by omega) a.ref a.adv a.p
        rw [hq] at hn
        cases hn
      · cases h; simp
      · split at h
        · cases h; simp
        · cases h; simp
        · split at h
          · split at h
            · cases h; simp
            · cases h
          · cases h; simp
    obtain ⟨r, rfl⟩ := Option.ne_none_iff_exists'.mp hne
    refine ⟨r, fun fuel hf => ?_⟩
    rw [findNear_fuel (by omega), runLoop_mono hr hf]
    rfl

theorem findExtrema_good {limit fuel : ℕ} {lib : FitsLib K} {cfg : FitsCfg K} {d : FitsData K} {sign : K} {f : Found K}
    (hp : FindsPeaks lib.findPeaks) (h : findExtrema limit fuel lib cfg d sign = some (.ok f)) :
    Good lib cfg d sign f.extrema f.info := by
  unfold findExtrema at h
  dsimp only at h
  split at h
  · cases h
  · rename_i t0 bounds s hs
    have hs0 : s.count = 0 ∧ s.extrema = [] ∧ s.extra = [] ∧ s.info = [] ∧ s.extraInfo = [] := by
      obtain ⟨⟨ts, ds, t0', p0, lo, hi⟩, _, hs⟩ := bind_ok hs
      obtain ⟨p, _, hs⟩ := bind_ok hs
      obtain ⟨ph, _, hs⟩ := bind_ok hs
      obtain ⟨ref, _, hs⟩ := bind_ok hs
      split at hs
      · cases hs
      · cases hs; simp
    obtain ⟨_, h1, h2, h3, h4⟩ := hs0
    obtain ⟨x, hx, hxf⟩ : ∃ x, runLoop (findBody limit
        (findNear fuel lib cfg d t0 sign (1 / 10 ^ 8) bounds cfg.N (cfg.N + 1)) cfg.N) fuel s = some x ∧
        x = some (.ok f) := by
      cases hx : runLoop (findBody limit (findNear fuel lib cfg d t0 sign (1 / 10 ^ 8) bounds cfg.N (cfg.N + 1)) cfg.N)
        fuel s with
      | none => rw [hx] at h; cases h
      | some x => rw [hx] at h; exact ⟨x, rfl, h⟩
    refine runLoop_inv (FindInv lib cfg d sign) (fun r => ∀ f, r = some (.ok f) → Good lib cfg d sign f.extrema f.info)
      ?_ ?_ ?_ hx f hxf
    · intro a b hI hb
      exact (findBody_inl (fun _ _ _ _ => findNear_ok hp) hI hb).1
    · intro a r hI hb f hf
      subst hf
      exact findBody_inr (fun _ _ _ _ => findNear_ok hp) hI hb
    · refine ⟨?_, ?_, by simp [h1], by simp [h1], fun _ => ⟨h1, h2, h3⟩⟩
      · rw [h1, h3]; exact Good.nil
      · rw [h2, h4]; exact Good.nil

/-- **C39.**  Reported indices increase strictly and lie inside the data, provided that the peak finder reports positions in
increasing order inside the data it is given. -/
theorem C39_increasing {limit fuel : ℕ} {lib : FitsLib K} {cfg : FitsCfg K} {d : FitsData K} {sign : K} {f : Found K}
    (hp : FindsPeaks lib.findPeaks) (h : findExtrema limit fuel lib cfg d sign = some (.ok f)) :
    f.extrema.Pairwise (· < ·) ∧ ∀ i ∈ f.extrema, i < d.data.length :=
  ⟨(findExtrema_good hp h).sorted, (findExtrema_good hp h).inside⟩

/-- **C39.**  Every reported index is a local extremum of the data minus a quasicircular trend `g`: a maximum for pericenters
(`sign = 1`), a minimum for apocenters (`sign = -1`). -/
theorem C39_extrema {limit fuel : ℕ} {lib : FitsLib K} {cfg : FitsCfg K} {d : FitsData K} {sign : K} {f : Found K}
    (hp : FindsPeaks lib.findPeaks) (hm : PeaksAreMaxima lib.findPeaks)
    (h : findExtrema limit fuel lib cfg d sign = some (.ok f)) :
    ∀ i ∈ f.extrema, ∃ t0 p, IsLocalMaximum d sign (trendAt lib.pow t0 p) i := by
  intro i hi
  obtain ⟨t0, p, lo, hi', r, dist, prom, peaks, hr, hpk, hlo, hmem⟩ := (findExtrema_good hp h).extremum i hi
  refine ⟨t0, p, ?_⟩
  obtain ⟨a, b, c, ha, hb, hc, hpos, hab, hcb⟩ := hm _ _ _ _ hpk _ hmem
  have hr' : r = List.zipWith (fun x t => x - trendAt lib.pow t0 p t) (cut d.data lo hi') (cut d.t lo hi') := by
    unfold residual at hr
    obtain ⟨f, hf, hr⟩ := bind_ok hr
    unfold envelope at hf
    obtain ⟨m, _, hf⟩ := bind_ok hf
    split at hf
    · cases hf
    · cases hf
      unfold npZip at hr
      split at hr
      · cases hr
        rw [List.zipWith_map_right]
      · cases hr
  have key : ∀ (k : ℕ) (v : K), (r.map (sign * ·))[k]? = some v → ∃ t x, d.t[lo + k]? = some t ∧ d.data[lo + k]? = some x ∧
      v = sign * (x - trendAt lib.pow t0 p t) := by
    intro k v hv
    rw [List.getElem?_map, hr', Option.map_eq_some_iff] at hv
    obtain ⟨u, hu, rfl⟩ := hv
    rw [List.getElem?_zipWith] at hu
    split at hu
    · rename_i x t h1 h2
      cases hu
      unfold cut at h1 h2
      rw [List.getElem?_drop, List.getElem?_take] at h1 h2
      split at h1
      · rw [if_pos (by assumption)] at h2
        exact ⟨t, x, h2, h1, rfl⟩
      · cases h1
    · cases hu
  obtain ⟨ta, da, hta, hda, rfl⟩ := key _ _ ha
  obtain ⟨tb, db, htb, hdb, rfl⟩ := key _ _ hb
  obtain ⟨tc, dc, htc, hdc, rfl⟩ := key _ _ hc
  have e1 : lo + (i - lo - 1) = i - 1 := by omega
  have e2 : lo + (i - lo) = i := by omega
  have e3 : lo + (i - lo + 1) = i + 1 := by omega
  rw [e1] at hta hda
  rw [e2] at htb hdb
  rw [e3] at htc hdc
  exact ⟨ta, da, tb, db, tc, dc, by omega, hta, hda, htb, hdb, htc, hdc, hab, hcb⟩

/-- **C39.**  One entry (time, value, phase) is stored for each reported extremum; when extrema are not refined these are the
time, the value and the phase of that sample. -/
theorem C39_info {limit fuel : ℕ} {lib : FitsLib K} {cfg : FitsCfg K} {d : FitsData K} {sign : K} {f : Found K}
    (hp : FindsPeaks lib.findPeaks) (h : findExtrema limit fuel lib cfg d sign = some (.ok f)) :
    f.info.length = f.extrema.length ∧ (cfg.refine = false → ∀ (k i : ℕ), f.extrema[k]? = some i →
      ∃ t x φ, f.info[k]? = some (t, x, φ) ∧ d.t[i]? = some t ∧ d.data[i]? = some x ∧ d.phase[i]? = some φ) := by
  have g := findExtrema_good hp h
  refine ⟨g.length, fun hr k i hk => ?_⟩
  obtain ⟨hlt, _⟩ := List.getElem?_eq_some_iff.mp hk
  have hi : f.info[k]? = some (f.info[k]'(by rw [g.length]; exact hlt)) := List.getElem?_eq_getElem _
  have := g.values hr (i, f.info[k]'(by rw [g.length]; exact hlt))
    (List.mem_of_getElem? (List.getElem?_zip_eq_some.mpr ⟨hk, hi⟩))
  exact ⟨_, _, _, hi, this⟩

/-- **C39.**  If neighbouring samples are never both peaks, the loop makes at most as many passes as there are samples: the
built-in limit of 10000 passes (an exception) is never reached for waveforms of up to 10000 samples, and any limit at least
the number of samples gives the same outcome. -/
theorem C39_passes {limit fuel : ℕ} {lib : FitsLib K} {cfg : FitsCfg K} {d : FitsData K} {sign : K}
    (hp : FindsPeaks lib.findPeaks) (hsep : Separates lib.findPeaks) (hl : d.data.length ≤ limit) :
    findExtrema limit fuel lib cfg d sign = findExtrema d.data.length fuel lib cfg d sign := by
  unfold findExtrema
  dsimp only
  split
  · rfl
  · rename_i t0 bounds s hs
    have hs0 : s.count = 0 ∧ s.extrema = [] ∧ s.extra = [] ∧ s.info = [] ∧ s.extraInfo = [] := by
      obtain ⟨⟨ts, ds, t0', p0, lo, hi⟩, _, hs⟩ := bind_ok hs
      obtain ⟨p, _, hs⟩ := bind_ok hs
      obtain ⟨ph, _, hs⟩ := bind_ok hs
      obtain ⟨ref, _, hs⟩ := bind_ok hs
      split at hs
      · cases hs
      · cases hs; simp
    obtain ⟨h0, h1, h2, h3, h4⟩ := hs0
    congr 1
    -- the pass is the same for any limit that exceeds the position reached
    have hcongr : ∀ (a : FindState K), FindInv lib cfg d sign a ∧ a.count ≤ a.ref →
        findBody limit (findNear fuel lib cfg d t0 sign (1 / 10 ^ 8) bounds cfg.N (cfg.N + 1)) cfg.N a =
        findBody d.data.length (findNear fuel lib cfg d t0 sign (1 / 10 ^ 8) bounds cfg.N (cfg.N + 1)) cfg.N a := by
      intro a ⟨hI, hc⟩
      unfold findBody
      dsimp only
      split
      · rfl
      · rfl
      · rename_i r hnear
        have hr := findNear_ok hp hnear
        split
        · rfl
        · rfl
        · rename_i s1 hrep
          have hcount := report_count hrep
          have hI' : FindInv lib cfg d sign { ({ a with count := a.count + 1 } : FindState K) with
            count := ({ a with count := a.count + 1 } : FindState K).count - 1 } := hI
          obtain ⟨g, hb⟩ := report_ok (by show a.count + 1 ≠ 0; omega) hI' hr hrep
          obtain ⟨g', hlt, hle⟩ := hb rfl
          split
          · rename_i x y hx hy
            have hx := pyGet_getElem? hx
            have hy := pyGet_getElem? hy
            obtain ⟨hle1, hle2⟩ := hle x hx
            have hxy := mid_ge hr.sorted hx hy (by omega)
            have hyin := hr.inside y (List.mem_of_getElem? hy)
            have href := hr.ref
            dsimp only at hcount href
            rw [if_neg (by omega), if_neg (by omega)]
          · rfl
    refine runLoop_congr (fun a => FindInv lib cfg d sign a ∧ a.count ≤ a.ref) hcongr ?_ fuel s ?_
    · intro a b ⟨hI, hc⟩ hb
      obtain ⟨q1, _, _, q2⟩ := findBody_inl (fun _ _ _ _ => findNear_ok hp) hI hb
      have q3 := findBody_count hb
      have q4 := q2 hsep
      exact ⟨q1, by omega⟩
    · refine ⟨⟨?_, ?_, by simp [h1], by simp [h1], fun _ => ⟨h1, h2, h3⟩⟩, by omega⟩
      · rw [h1, h3]; exact Good.nil
      · rw [h2, h4]; exact Good.nil

end search

end GwEcc.Fits

namespace GwEcc.FitsDemo

open GwEcc GwEcc.Fits GwEcc.Spec

/-- Interior samples larger than both neighbours. -/
def localMaxima (l : List ℚ) : List ℕ :=
  (List.range l.length).filter fun i =>
    match l[i - 1]?, l[i]?, l[i + 1]? with
    | some a, some b, some c => decide (0 < i ∧ a < b ∧ c < b)
    | _, _, _ => false

/-- Libraries for exact examples: a peak finder returning all strict local maxima, a fit returning the zero trend. -/
def lib : FitsLib ℚ where
  pi := 1
  pow := fun _ _ => 1
  curveFit := fun _ _ _ _ _ _ => .ok ⟨0, 0, 1⟩
  findPeaks := fun l _ _ => .ok (localMaxima l)
  parabola := fun _ _ => .error .valueError
  cubic := fun _ _ _ => .error .valueError

/-- Options of the examples. -/
def cfg : FitsCfg ℚ := ⟨-3 / 8, 10, 10, 1 / 10, 1 / 10, 2, 10, false⟩

/-- 48 samples with maxima at 2, 6, 10, ...; `c` sets how fast the phase grows. -/
def wave (c : ℚ) (first : ℕ) : FitsData ℚ where
  t := (List.range 48).map fun i => (i : ℚ) - 48
  phase := (List.range 48).map fun i => c * (i : ℚ)
  data := (List.range 48).map fun i => if i % 4 = first then 2 else 1

/-- Result of the search for pericenters: indices, or nothing on an exception or missing fuel. -/
def pericenters (d : FitsData ℚ) : Option (List ℕ) :=
  match findExtrema passLimit 60 lib cfg d 1 with
  | some (.ok f) => some f.extrema
  | _ => none

theorem findsPeaks : FindsPeaks lib.findPeaks := by
  intro data _ _ peaks h
  cases h
  refine ⟨List.Pairwise.filter _ List.pairwise_lt_range, ?_⟩
  intro i hi
  have := (List.mem_filter.mp hi).1
  simpa using this

theorem mem_localMaxima {l : List ℚ} {i : ℕ} (h : i ∈ localMaxima l) :
    ∃ a b c, l[i - 1]? = some a ∧ l[i]? = some b ∧ l[i + 1]? = some c ∧ 0 < i ∧ a < b ∧ c < b := by
  have h := (List.mem_filter.mp h).2
  split at h
  · rename_i a b c ha hb hc
    exact ⟨a, b, c, ha, hb, hc, by simpa using h⟩
  · cases h

theorem peaksAreMaxima : PeaksAreMaxima lib.findPeaks := by
  intro data _ _ peaks h i hi
  cases h
  obtain ⟨a, b, c, h1, h2, h3, h4, h5, h6⟩ := mem_localMaxima hi
  exact ⟨a, b, c, h1, h2, h3, h4, h5.le, h6.le⟩

theorem separates : Separates lib.findPeaks := by
  intro data _ _ peaks h
  cases h
  have hp : (localMaxima data).Pairwise (· < ·) := List.Pairwise.filter _ List.pairwise_lt_range
  refine List.Pairwise.imp_of_mem ?_ hp
  intro a b ha hb hab
  by_contra hc
  obtain rfl : b = a + 1 := by omega
  obtain ⟨_, x, y, _, h1, h2, _, _, h3⟩ := mem_localMaxima ha
  obtain ⟨u, v, _, g1, g2, _, _, g3, _⟩ := mem_localMaxima hb
  rw [Nat.add_sub_cancel, h1] at g1
  rw [h2] at g2
  cases g1; cases g2
  exact absurd h3 (not_lt.mpr g3.le)

/-- All hypotheses of the theorems above are met, and the search finds all twelve maxima. -/
example : FindsPeaks lib.findPeaks ∧ Separates lib.findPeaks ∧ PeaksAreMaxima lib.findPeaks ∧
    pericenters (wave 1 2) = some [2, 6, 10, 14, 18, 22, 26, 30, 34, 38, 42, 46] :=
  ⟨findsPeaks, separates, peaksAreMaxima, by decide +kernel⟩

/-- **C39, not promised.**  A local maximum at exactly the reference sample of a local search is neither reported nor taken as
a reason to stop, so it is missing between reported pericenters: here sample 9 is a maximum like its neighbours 5 and 13. -/
theorem C39_may_skip : FindsPeaks lib.findPeaks ∧ Separates lib.findPeaks ∧
    pericenters (wave (1 / 2) 1) = some [1, 5, 13, 17, 21, 25, 29, 33, 37, 41, 45] ∧
    localMaxima (wave (1 / 2) 1).data = [1, 5, 9, 13, 17, 21, 25, 29, 33, 37, 41, 45] :=
  ⟨findsPeaks, separates, by decide +kernel, by decide +kernel⟩

end GwEcc.FitsDemo
