import Verif.Lemmas.Fourier
import Verif.Props.SpinFilter
import Verif.Props.SpinMask

/-!
# C94: what the low-pass filter does to the data
-/

namespace GwEcc.Filter

open Finset

/-- The sum of squares. -/
def energy (x : List ℝ) : ℝ := (x.map fun a => a ^ 2).sum

theorem energy_eq (x : List ℝ) : (energy x : ℂ) = ∑ j ∈ range x.length, seqOf x j * (starRingEnd ℂ) (seqOf x j) := by
  have : energy x = ∑ j ∈ range x.length, ((x[j]?).getD 0) ^ 2 := by
    unfold energy
    induction x with
    | nil => simp
    | cons a x ih =>
      rw [List.map_cons, List.sum_cons, ih, List.length_cons, Finset.sum_range_succ']
      simp [add_comm]
  rw [this]
  push_cast
  refine Finset.sum_congr rfl fun j _ => ?_
  rw [seqOf_real]
  unfold seqOf
  push_cast
  ring

/-- **C94.**  The filtered data are as many real numbers as the data, and their Fourier transform is that of the data times
the mask, at every frequency. -/
theorem C94_spectrum (x mask : List ℝ) (hm : mask.length = x.length / 2 + 1) (hx : x ≠ []) :
    (lowpassFFT x mask).length = x.length ∧
      rfft (lowpassFFT x mask) = List.zipWith (fun (z : ℂ) (m : ℝ) => z * m) (rfft x) mask := by
  have hlen := lowpass_length x mask
  have hpos : 0 < x.length := List.length_pos_iff.mpr hx
  refine ⟨hlen, List.ext_getElem? fun k => ?_⟩
  by_cases hk : k ≤ x.length / 2
  · rw [rfft_get (by rw [hlen]; exact hk), hlen, dft_lowpass hm (by omega), List.getElem?_zipWith, rfft_get hk,
      List.getElem?_eq_getElem (show k < mask.length by omega)]
    have : maskFull mask x.length k = mask[k]'(by omega) := by
      unfold maskFull
      rw [if_pos hk, List.getElem?_eq_getElem (show k < mask.length by omega)]
      rfl
    rw [this]
    simp [mul_comm]
  · rw [List.getElem?_eq_none (by rw [rfft_length, hlen]; omega), List.getElem?_eq_none (by
      rw [List.length_zipWith, rfft_length]; omega)]

/-- **C94.**  Data are determined by their Fourier transform, so the previous theorem says what the filtered data are. -/
theorem C94_determined (x y : List ℝ) (hl : x.length = y.length) (h : rfft x = rfft y) : x = y := by
  have hfull : ∀ k < x.length, dft x.length (seqOf x) k = dft x.length (seqOf y) k := by
    have hlow : ∀ k ≤ x.length / 2, dft x.length (seqOf x) k = dft x.length (seqOf y) k := by
      intro k hk
      have h1 := rfft_get (x := x) hk
      rw [h, rfft_get (by rw [← hl]; exact hk), ← hl] at h1
      exact (Option.some.inj h1).symm
    intro k hk
    by_cases h2 : k ≤ x.length / 2
    · exact hlow k h2
    · have e : k = x.length - (x.length - k) := by omega
      rw [e, dft_reflect (seqOf_real x) (by omega) (by omega), dft_reflect (seqOf_real y) (by omega) (by omega),
        hlow _ (by omega)]
  refine List.ext_getElem hl fun j h1 h2 => ?_
  have e := idft_dft (seqOf x) h1
  rw [show idft x.length (dft x.length (seqOf x)) j = idft x.length (dft x.length (seqOf y)) j by
    unfold idft
    congr 1
    exact Finset.sum_congr rfl fun k hk => by rw [hfull k (mem_range.mp hk)], idft_dft (seqOf y) h1] at e
  unfold seqOf at e
  rw [List.getElem?_eq_getElem h1, List.getElem?_eq_getElem h2] at e
  simpa using e.symm

/-- **C94.**  Filtering does not add energy, for any mask between 0 and 1. -/
theorem C94_energy (x mask : List ℝ) (hm : mask.length = x.length / 2 + 1) (h01 : ∀ m ∈ mask, 0 ≤ m ∧ m ≤ 1) :
    energy (lowpassFFT x mask) ≤ energy x := by
  by_cases hx : x = []
  · subst hx
    have : lowpassFFT [] mask = [] := List.length_eq_zero_iff.mp (lowpass_length [] mask)
    rw [this]
  have hpos : 0 < x.length := List.length_pos_iff.mpr hx
  have hlen := lowpass_length x mask
  have p1 := parseval x.length (seqOf (lowpassFFT x mask))
  have p2 := parseval x.length (seqOf x)
  have e1 := energy_eq (lowpassFFT x mask)
  rw [hlen] at e1
  rw [← e1] at p1
  rw [← energy_eq] at p2
  have hc : ∀ z : ℂ, z * (starRingEnd ℂ) z = ((‖z‖ ^ 2 : ℝ) : ℂ) := fun z => by
    rw [Complex.mul_conj, Complex.normSq_eq_norm_sq]
  simp only [hc] at p1 p2
  have q1 : ∑ k ∈ range x.length, ‖dft x.length (seqOf (lowpassFFT x mask)) k‖ ^ 2 =
      x.length * energy (lowpassFFT x mask) := by exact_mod_cast p1
  have q2 : ∑ k ∈ range x.length, ‖dft x.length (seqOf x) k‖ ^ 2 = x.length * energy x := by exact_mod_cast p2
  have hmf : ∀ k < x.length, 0 ≤ maskFull mask x.length k ∧ maskFull mask x.length k ≤ 1 := by
    intro k hk
    have : ∀ l ≤ x.length / 2, 0 ≤ (mask[l]?).getD 0 ∧ (mask[l]?).getD 0 ≤ 1 := by
      intro l hl
      have hl' : l < mask.length := by omega
      rw [List.getElem?_eq_getElem hl', Option.getD_some]
      exact h01 _ (List.getElem_mem hl')
    unfold maskFull
    split
    · next h => exact this k h
    · exact this _ (by omega)
  have hle : ∑ k ∈ range x.length, ‖dft x.length (seqOf (lowpassFFT x mask)) k‖ ^ 2 ≤
      ∑ k ∈ range x.length, ‖dft x.length (seqOf x) k‖ ^ 2 := by
    refine Finset.sum_le_sum fun k hk => ?_
    have hk' := mem_range.mp hk
    obtain ⟨h0, h1⟩ := hmf k hk'
    rw [dft_lowpass hm hk', norm_mul, Complex.norm_real, Real.norm_of_nonneg h0]
    exact pow_le_pow_left₀ (mul_nonneg h0 (norm_nonneg _)) (mul_le_of_le_one_left (norm_nonneg _) h1) 2
  rw [q1, q2] at hle
  exact le_of_mul_le_mul_left hle (by exact_mod_cast hpos)

/-- `A cos(2 pi k j / n + phi)` for `0 <= j < n`: an oscillation with `k` periods in the data. -/
noncomputable def oscillation (n k : ℕ) (A phi : ℝ) : List ℝ :=
  (List.range n).map fun (j : ℕ) => A * Real.cos (2 * Real.pi * k * j / n + phi)

theorem dft_oscillation {n k l : ℕ} {A phi : ℝ} (hk : k ≤ n / 2) (hl : l ≤ n / 2) (hkl : l ≠ k) :
    dft n (seqOf (oscillation n k A phi)) l = 0 := by
  have hn : 0 < n := by omega
  have hval : ∀ j < n, seqOf (oscillation n k A phi) j =
      A / 2 * Complex.exp (phi * Complex.I) * wave n k j + A / 2 * Complex.exp (-(phi * Complex.I)) * wave n ((n - k) % n) j := by
    intro j hj
    unfold seqOf oscillation
    rw [List.getElem?_map, List.getElem?_range hj]
    have hw : wave n ((n - k) % n) j = (starRingEnd ℂ) (wave n k j) := by
      rcases Nat.eq_zero_or_pos k with h0 | h0
      · subst h0
        simp [wave]
      · rw [Nat.mod_eq_of_lt (by omega), wave_reflect h0 (by omega)]
    rw [hw]
    simp only [Option.map_some, Option.getD_some]
    push_cast
    rw [Complex.cos, wave, ← Complex.exp_conj]
    have e1 : (2 * (Real.pi : ℂ) * k * j / n + phi) * Complex.I = 2 * Real.pi * Complex.I * k * j / n + phi * Complex.I := by
      ring
    have e2 : -(2 * (Real.pi : ℂ) * k * j / n + phi) * Complex.I =
        (starRingEnd ℂ) (2 * Real.pi * Complex.I * k * j / n) + -(phi * Complex.I) := by
      simp [map_div₀, Complex.conj_ofReal, map_ofNat]
      ring
    rw [e1, e2, Complex.exp_add, Complex.exp_add]
    ring
  rw [dft_congr hval]
  unfold dft
  have h1 : ∀ a < n, ∑ j ∈ range n, wave n a j * (starRingEnd ℂ) (wave n l j) = if a = l then (n : ℂ) else 0 := by
    intro a ha
    rw [← wave_ortho ha (show l < n by omega)]
    exact Finset.sum_congr rfl fun j _ => by rw [wave_comm a j, wave_comm l j]
  simp only [add_mul, Finset.sum_add_distrib]
  have h2 : ∀ c a, a < n → a ≠ l → ∑ j ∈ range n, c * wave n a j * (starRingEnd ℂ) (wave n l j) = 0 := by
    intro c a ha hal
    simp only [mul_assoc]
    rw [← Finset.mul_sum, h1 a ha, if_neg hal, mul_zero]
  rw [h2 _ k (by omega) (Ne.symm hkl), h2 _ _ (Nat.mod_lt _ hn) ?_, add_zero]
  rcases Nat.eq_zero_or_pos k with h0 | h0
  · subst h0
    simpa using Ne.symm hkl
  · rw [Nat.mod_eq_of_lt (by omega)]
    omega

/-- **C94.**  An oscillation with a whole number of periods in the data is multiplied by the value of the mask at its
frequency: those that are slow enough are kept as they are, those that are too fast vanish. -/
theorem C94_oscillation (n k : ℕ) (A phi : ℝ) (mask : List ℝ) (m : ℝ) (hm : mask.length = n / 2 + 1)
    (hk : mask[k]? = some m) (hn : 0 < n) :
    lowpassFFT (oscillation n k A phi) mask = oscillation n k (m * A) phi := by
  have hkn : k ≤ n / 2 := by
    obtain ⟨h, _⟩ := List.getElem?_eq_some_iff.mp hk
    omega
  have hlen : ∀ B, (oscillation n k B phi).length = n := fun B => by simp [oscillation]
  obtain ⟨h1, h2⟩ := C94_spectrum (oscillation n k A phi) mask (by rw [hlen, hm]) (by
    intro h
    have := hlen A
    rw [h] at this
    simp at this
    omega)
  refine C94_determined _ _ (by rw [h1, hlen, hlen]) ?_
  rw [h2]
  refine List.ext_getElem? fun l => ?_
  by_cases hl : l ≤ n / 2
  · have hlm : l < mask.length := by omega
    rw [List.getElem?_zipWith, rfft_get (by rw [hlen]; exact hl), rfft_get (by rw [hlen]; exact hl),
      List.getElem?_eq_getElem hlm, hlen, hlen]
    simp only [Option.some.injEq]
    by_cases hlk : l = k
    · subst hlk
      rw [List.getElem?_eq_getElem hlm] at hk
      rw [Option.some.inj hk]
      unfold dft
      rw [Finset.sum_mul]
      refine Finset.sum_congr rfl fun j hj => ?_
      have hj' := mem_range.mp hj
      have : seqOf (oscillation n l (m * A) phi) j = m * seqOf (oscillation n l A phi) j := by
        unfold seqOf oscillation
        rw [List.getElem?_map, List.getElem?_map, List.getElem?_range hj']
        simp only [Option.map_some, Option.getD_some]
        push_cast
        ring
      rw [this]
      ring
    · rw [dft_oscillation hkn hl hlk, dft_oscillation hkn hl hlk, zero_mul]
  · rw [List.getElem?_eq_none (by rw [List.length_zipWith, rfft_length, hlen]; omega),
      List.getElem?_eq_none (by rw [rfft_length, hlen]; omega)]

/-! ## A whole segment -/

theorem mapM_id_some {α : Type} : ∀ {l : List (Option α)} {r : List α}, l.mapM id = some r → l = r.map some
  | [], r, h => by cases h; rfl
  | a :: l, r, h => by
    rw [List.mapM_cons] at h
    cases a with
    | none => simp at h
    | some a =>
      cases hr : l.mapM id with
      | none => simp [hr] at h
      | some r' =>
        simp only [id_eq, Option.bind_eq_bind, Option.bind_some, hr, Option.pure_def, Option.some.injEq] at h
        rw [← h, mapM_id_some hr]
        rfl

theorem energy_append (x y : List ℝ) : energy (x ++ y) = energy x + energy y := by
  simp [energy]

theorem energy_nonneg (x : List ℝ) : 0 ≤ energy x := by
  unfold energy
  refine List.sum_nonneg fun a ha => ?_
  obtain ⟨b, _, rfl⟩ := List.mem_map.mp ha
  exact sq_nonneg b

theorem energy_slice (x : List ℝ) (a b : ℤ) : energy (pySlice x a b) ≤ energy x := by
  unfold pySlice
  have h1 := congrArg energy (List.take_append_drop (pyBound x.length b) x)
  have h2 := congrArg energy (List.take_append_drop (pyBound x.length a) (x.take (pyBound x.length b)))
  rw [energy_append] at h1 h2
  have := energy_nonneg (x.drop (pyBound x.length b))
  have := energy_nonneg ((x.take (pyBound x.length b)).take (pyBound x.length a))
  linarith

theorem energy_pad (p : ℕ) (x : List ℝ) : energy (pad p x) = energy x := by
  unfold pad
  rw [energy_append, energy_append]
  simp [energy]

/-- How the frequencies are found in data `x` with samples `step` apart: that of the spins is where the modulus of the Fourier transform
is largest in the window around the estimate, that of the eccentricity where it is largest in the window below, the cutoff where it is
smallest between the two; a window that holds no frequency gives the estimate, two fifths of the frequency of the spins, or the middle. -/
def Detected (cfg : FilterCfg ℝ) (guess step : ℝ) (x : List ℝ) (fCut fEcc fSpin : ℝ) : Prop :=
  let within := Spec.InWindow (rfftfreq x.length step) ((rfft x).map fun z => ‖z‖ / x.length)
  ((∃ a, within (cfg.spinLo * guess) (cfg.spinHi * guess) fSpin a ∧
      ∀ g b, within (cfg.spinLo * guess) (cfg.spinHi * guess) g b → b ≤ a) ∨
    (fSpin = guess ∧ ∀ g b, ¬ within (cfg.spinLo * guess) (cfg.spinHi * guess) g b)) ∧
  ((∃ a, within (cfg.eccLo * fSpin) (cfg.eccHi * fSpin) fEcc a ∧
      ∀ g b, within (cfg.eccLo * fSpin) (cfg.eccHi * fSpin) g b → b ≤ a) ∨
    (fEcc = fSpin / (5 / 2) ∧ ∀ g b, ¬ within (cfg.eccLo * fSpin) (cfg.eccHi * fSpin) g b)) ∧
  ((∃ a, within fEcc fSpin fCut a ∧ ∀ g b, within fEcc fSpin g b → a ≤ b) ∨
    (fCut = 1 / 2 * (fSpin + fEcc) ∧ ∀ g b, ¬ within fEcc fSpin g b))

/-- What filtering a segment does.  The data of the segment are the trend plus a residual; the filtered data are the trend
plus what is left of the residual, namely the middle part of data `y` that have the Fourier components of the zero-padded
residual below the taper and none above it, for a cutoff between the detected frequency of the eccentricity and that of the
spins.  What is left has no more energy than the residual.  (Options ordered as the default ones, positive time between
crossings.) -/
theorem C94_segment (base : FilterLib ℝ) (cfg : FilterCfg ℝ) (o : FilterObj ℝ) (c : ℝ) (seg : Segment ℝ)
    (hdT : 0 < o.dT c) (htaper : 0 < cfg.taper) (h1 : 0 < cfg.spinLo) (h2 : cfg.spinLo ≤ 1) (h3 : 1 ≤ cfg.spinHi)
    (h4 : 0 < cfg.eccLo) (h5 : cfg.eccHi ≤ 1) (hs : o.t.Pairwise (· < ·))
    (h : filterSegment (fourierLib base) cfg o c = .ok seg) :
    ∃ ts ds trend residual rest y fCut fEcc fSpin t0 t1, makeSegment cfg o c = .ok (ts, ds) ∧ seg.t = ts ∧
      base.fit ts ds o.kind o.tMerger = .ok trend ∧ ts[0]? = some t0 ∧ ts[1]? = some t1 ∧
      Detected cfg (1 / o.dT c) (t1 - t0) (pad cfg.padding (List.zipWith (· * ·) (hammingWindow ts.length) residual)) fCut fEcc fSpin ∧
      0 < fEcc ∧ fEcc ≤ fCut ∧ fCut ≤ fSpin ∧ cfg.spinLo * (1 / o.dT c) ≤ fSpin ∧ fSpin ≤ cfg.spinHi * (1 / o.dT c) ∧
      ds = List.zipWith (· + ·) (ts.map trend) residual ∧ seg.filtered = List.zipWith (· + ·) (ts.map trend) rest ∧
      residual.length = ts.length ∧ rest.length = ts.length ∧ rest = (y.drop cfg.padding).take ts.length ∧
      y.length = 2 * cfg.padding + ts.length ∧
      (∀ k : ℕ, k ≤ y.length / 2 →
        ((k : ℝ) / (y.length * (t1 - t0)) < fCut * (1 - cfg.taper) → (rfft y)[k]? = (rfft (pad cfg.padding residual))[k]?) ∧
        (fCut * (1 + cfg.taper) < (k : ℝ) / (y.length * (t1 - t0)) → (rfft y)[k]? = some 0)) ∧
      energy rest ≤ energy residual := by
  obtain ⟨_, hplaced, hlen2, _⟩ := filterSegment_ok hs h
  have hfl := hplaced.2.2
  unfold filterSegment at h
  obtain ⟨⟨ts, ds⟩, hseg, h⟩ := bind_ok h
  dsimp only at h
  obtain ⟨trend, htrend, h⟩ := bind_ok h
  obtain ⟨residual, hres, h⟩ := bind_ok h
  obtain ⟨windowed, hwin, h⟩ := bind_ok h
  obtain ⟨t1, ht1, h⟩ := bind_ok h
  obtain ⟨t0, ht0, h⟩ := bind_ok h
  split at h
  · cases h
  split at h
  · cases h
  next mask hmask =>
  obtain ⟨filtered, hf, h⟩ := bind_ok h
  cases h
  dsimp only at hfl hlen2
  -- lengths
  have hresl : ds.length = (ts.map trend).length ∧ residual = List.zipWith (· - ·) ds (ts.map trend) := by
    unfold npZip at hres
    split at hres
    · next hl => exact ⟨hl, (Except.ok.inj hres).symm⟩
    · cases hres
  have hfz : (ts.map trend).length = (pySlice ((fourierLib base).lowpass (pad cfg.padding residual) mask) cfg.padding
      (-(cfg.padding : ℤ))).length ∧ filtered = List.zipWith (· + ·) (ts.map trend)
      (pySlice ((fourierLib base).lowpass (pad cfg.padding residual) mask) cfg.padding (-(cfg.padding : ℤ))) := by
    unfold npZip at hf
    split at hf
    · next hl => exact ⟨hl, (Except.ok.inj hf).symm⟩
    · cases hf
  rw [List.length_map] at hresl hfz
  have hrl : residual.length = ts.length := by rw [hresl.2, List.length_zipWith, List.length_map, hresl.1, Nat.min_self]
  have hpl : (pad cfg.padding residual).length = 2 * cfg.padding + ts.length := by
    simp only [pad, List.length_append, List.length_replicate, hrl]
    omega
  set r := detect (rfftfreq (pad cfg.padding windowed).length (t1 - t0))
    ((fourierLib base).spectrum (pad cfg.padding windowed)) (1 / o.dT c) cfg.spinLo cfg.spinHi cfg.eccLo cfg.eccHi with hr
  obtain ⟨o1, o2, o3, o4, o5⟩ := C43_order (rfftfreq (pad cfg.padding windowed).length (t1 - t0))
    ((fourierLib base).spectrum (pad cfg.padding windowed)) (one_div_pos.mpr hdT) h1 h2 h3 h4 h5
  have hdet := C43_peaks (rfftfreq (pad cfg.padding windowed).length (t1 - t0))
    ((fourierLib base).spectrum (pad cfg.padding windowed)) (1 / o.dT c) cfg.spinLo cfg.spinHi cfg.eccLo cfg.eccHi
  have hwe : windowed = List.zipWith (· * ·) (hammingWindow ts.length) residual := by
    unfold npZip at hwin
    split at hwin
    · rw [← Except.ok.inj hwin, hrl]; rfl
    · cases hwin
  rw [← hr] at o1 o2 o3 o4 o5 hdet
  have hf0 : 0 < r.1 := lt_of_lt_of_le o1 o2
  have hml := mapM_id_some hmask
  have hmlen : mask.length = (pad cfg.padding residual).length / 2 + 1 := by
    have := congrArg List.length hml
    simpa [lowpassMask, rfftfreq] using this.symm
  have hmget : ∀ k ≤ (pad cfg.padding residual).length / 2, ∃ m, mask[k]? = some m ∧
      maskAt Real.pi Real.cos r.1 cfg.taper ((k : ℝ) / ((pad cfg.padding residual).length * (t1 - t0))) = some m := by
    intro k hk
    have hkm : k < mask.length := by omega
    have := congrArg (fun l => l[k]?) hml
    simp only [lowpassMask, rfftfreq, List.getElem?_map] at this
    rw [List.getElem?_range (by omega), List.getElem?_eq_getElem hkm] at this
    simp only [Option.map_some, Option.some.injEq] at this
    exact ⟨mask[k], List.getElem?_eq_getElem hkm, this⟩
  have h01 : ∀ m ∈ mask, 0 ≤ m ∧ m ≤ 1 := by
    intro m hm
    obtain ⟨k, hk⟩ := List.getElem?_of_mem hm
    obtain ⟨hkl, _⟩ := List.getElem?_eq_some_iff.mp hk
    obtain ⟨m', hm1, hm2⟩ := hmget k (by omega)
    obtain ⟨m'', h1, h2, h3, _⟩ := C42_mask hf0 htaper ((k : ℝ) / ((pad cfg.padding residual).length * (t1 - t0)))
    rw [hm2] at h1
    cases h1
    rw [hk] at hm1
    cases hm1
    exact ⟨h2, h3⟩
  have hne : pad cfg.padding residual ≠ [] := by
    intro h0
    rw [h0] at hpl
    simp at hpl
    omega
  obtain ⟨s1, s2⟩ := C94_spectrum (pad cfg.padding residual) mask hmlen hne
  have hylen : (lowpassFFT (pad cfg.padding residual) mask).length = 2 * cfg.padding + ts.length := by rw [s1, hpl]
  have hpad : 0 < cfg.padding ∨ cfg.padding = 0 := by omega
  have hslice : pySlice (lowpassFFT (pad cfg.padding residual) mask) cfg.padding (-(cfg.padding : ℤ)) =
      ((lowpassFFT (pad cfg.padding residual) mask).drop cfg.padding).take ts.length := by
    have hz := hfz.1
    change ts.length = (pySlice (lowpassFFT (pad cfg.padding residual) mask) cfg.padding (-(cfg.padding : ℤ))).length at hz
    unfold pySlice at hz ⊢
    rw [hylen] at hz ⊢
    have hb1 : pyBound (2 * cfg.padding + ts.length) (cfg.padding : ℤ) = cfg.padding := by
      unfold pyBound; split <;> omega
    rcases hpad with hp | hp
    · have hb2 : pyBound (2 * cfg.padding + ts.length) (-(cfg.padding : ℤ)) = cfg.padding + ts.length := by
        unfold pyBound; split <;> omega
      rw [hb1, hb2, List.drop_take, Nat.add_sub_cancel_left]
    · exfalso
      have hb2 : pyBound (2 * cfg.padding + ts.length) (-(cfg.padding : ℤ)) = 0 := by
        rw [hp]; unfold pyBound; simp
      rw [hb2, List.take_zero, List.drop_nil, List.length_nil] at hz
      omega
  refine ⟨ts, ds, trend, residual, _, lowpassFFT (pad cfg.padding residual) mask, r.1, r.2.1, r.2.2, t0, t1, hseg, rfl,
    htrend, pyGet_getElem? ht0, pyGet_getElem? ht1, hwe ▸ hdet, o1, o2, o3, o4, o5, ?_, hfz.2, hrl, hfz.1.symm, hslice, hylen, ?_, ?_⟩
  · rw [hresl.2]
    refine List.ext_getElem? fun i => ?_
    rw [List.getElem?_zipWith, List.getElem?_zipWith]
    rcases Nat.lt_or_ge i ds.length with hi | hi
    · rw [List.getElem?_eq_getElem hi, List.getElem?_eq_getElem (show i < (ts.map trend).length by
        rw [List.length_map, ← hresl.1]; exact hi)]
      simp
    · rw [List.getElem?_eq_none hi, List.getElem?_eq_none (show (ts.map trend).length ≤ i by
        rw [List.length_map, ← hresl.1]; exact hi)]
  · intro k hk
    rw [s1] at hk ⊢
    obtain ⟨m, hm1, hm2⟩ := hmget k hk
    obtain ⟨m', h1, _, _, h4, h5, _⟩ := C42_mask hf0 htaper
      ((k : ℝ) / ((pad cfg.padding residual).length * (t1 - t0)))
    rw [hm2] at h1
    cases h1
    rw [s2, List.getElem?_zipWith, rfft_get hk, hm1]
    refine ⟨fun hlt => ?_, fun hlt => ?_⟩
    · simp [h4 hlt]
    · simp [h5 hlt]
  · refine le_trans (energy_slice _ _ _) ?_
    have := C94_energy (pad cfg.padding residual) mask hmlen h01
    rw [energy_pad] at this
    exact this

/-- **C94.**  The residual is multiplied by a window before its frequencies are looked for: it has the length of the data, is
the same seen from both ends, never amplifies, leaves the middle as it is, and reduces both ends to 8%. -/
theorem C94_window (base : FilterLib ℝ) (n : ℕ) (hn : 2 ≤ n) :
    ((fourierLib base).hamming n).length = n ∧
      (∀ w ∈ (fourierLib base).hamming n, 2 / 25 ≤ w ∧ w ≤ 1) ∧
      (∀ i, i < n → ((fourierLib base).hamming n)[i]? = ((fourierLib base).hamming n)[n - 1 - i]?) ∧
      ((fourierLib base).hamming n)[0]? = some (2 / 25) ∧ ((fourierLib base).hamming n)[n - 1]? = some (2 / 25) ∧
      (∀ m, n = 2 * m + 1 → ((fourierLib base).hamming n)[m]? = some 1) := by
  have hw : (fourierLib base).hamming n = (List.range n).map fun (k : ℕ) =>
      27 / 50 - 23 / 50 * Real.cos (2 * Real.pi * k / ((n : ℝ) - 1)) := by
    show hammingWindow n = _
    unfold hammingWindow
    rw [if_neg (by omega)]
  have hn1 : ((n : ℝ) - 1) ≠ 0 := by
    have : (2 : ℝ) ≤ n := by exact_mod_cast hn
    linarith
  have get : ∀ i, i < n → ((fourierLib base).hamming n)[i]? =
      some (27 / 50 - 23 / 50 * Real.cos (2 * Real.pi * i / ((n : ℝ) - 1))) := by
    intro i hi
    rw [hw, List.getElem?_map, List.getElem?_range hi]
    rfl
  have sym : ∀ i, i < n → ((fourierLib base).hamming n)[i]? = ((fourierLib base).hamming n)[n - 1 - i]? := by
    intro i hi
    rw [get i hi, get (n - 1 - i) (by omega)]
    have e : 2 * Real.pi * ((n - 1 - i : ℕ) : ℝ) / ((n : ℝ) - 1) = 2 * Real.pi - 2 * Real.pi * i / ((n : ℝ) - 1) := by
      rw [Nat.cast_sub (by omega), Nat.cast_sub (by omega)]
      push_cast
      field_simp
    rw [e, Real.cos_two_pi_sub]
  have zero : ((fourierLib base).hamming n)[0]? = some (2 / 25) := by
    rw [get 0 (by omega)]
    norm_num
  refine ⟨by rw [hw]; simp, ?_, sym, zero, ?_, ?_⟩
  · intro w h
    rw [hw] at h
    obtain ⟨k, -, rfl⟩ := List.mem_map.mp h
    have h1 := Real.neg_one_le_cos (2 * Real.pi * k / ((n : ℝ) - 1))
    have h2 := Real.cos_le_one (2 * Real.pi * k / ((n : ℝ) - 1))
    constructor <;> linarith
  · rw [← zero, sym 0 (by omega), Nat.sub_zero]
  · intro m hm
    rw [get m (by omega)]
    have e : 2 * Real.pi * (m : ℝ) / ((n : ℝ) - 1) = Real.pi := by
      have hm0 : (m : ℝ) ≠ 0 := by
        have : m ≠ 0 := by omega
        exact_mod_cast this
      rw [hm]
      push_cast
      field_simp
      ring
    rw [e, Real.cos_pi]
    norm_num

theorem mapM_id_total {α : Type} : ∀ {l : List (Option α)}, (∀ x ∈ l, ∃ a, x = some a) → ∃ r, l.mapM id = some r
  | [], _ => ⟨[], rfl⟩
  | x :: l, h => by
    obtain ⟨a, rfl⟩ := h x (List.mem_cons_self ..)
    obtain ⟨r, hr⟩ := mapM_id_total (l := l) fun y hy => h y (List.mem_cons_of_mem _ hy)
    exact ⟨a :: r, by rw [List.mapM_cons]; simp [hr]⟩

theorem npZip_of_length {α : Type} (f : α → α → α) {x y : List α} (h : x.length = y.length) :
    npZip f x y = .ok (List.zipWith f x y) := by
  unfold npZip
  rw [if_pos h]

/-- **C94.**  A segment of at least two increasing times, with as many data, for which the trend can be fitted, is always
filtered (padding positive, options ordered as the default ones, positive time between crossings). -/
theorem C94_defined (base : FilterLib ℝ) (cfg : FilterCfg ℝ) (o : FilterObj ℝ) (c : ℝ) (ts ds : List ℝ) (trend : ℝ → ℝ)
    (hdT : 0 < o.dT c) (htaper : 0 < cfg.taper) (h1 : 0 < cfg.spinLo) (h2 : cfg.spinLo ≤ 1) (h3 : 1 ≤ cfg.spinHi)
    (h4 : 0 < cfg.eccLo) (h5 : cfg.eccHi ≤ 1) (hpad : 0 < cfg.padding) (hseg : makeSegment cfg o c = .ok (ts, ds))
    (hl : ds.length = ts.length) (h2' : 2 ≤ ts.length) (hs : ts.Pairwise (· < ·))
    (hfit : base.fit ts ds o.kind o.tMerger = .ok trend) :
    ∃ seg, filterSegment (fourierLib base) cfg o c = .ok seg := by
  have hham : ∀ n, (hammingWindow n).length = n := fun n => by
    unfold hammingWindow
    split
    · next h => simp [h]
    · simp
  have hzl : (List.zipWith (fun x y : ℝ => x - y) ds (ts.map trend)).length = ts.length := by
    simp [hl]
  have hne : ts[1] - ts[0] ≠ 0 := by
    have := List.pairwise_iff_getElem.mp hs 0 1 (by omega) (by omega) (by omega)
    exact sub_ne_zero.mpr (ne_of_gt this)
  unfold filterSegment
  rw [hseg, ok_bind]
  dsimp only
  rw [show (fourierLib base).fit ts ds o.kind o.tMerger = .ok trend from hfit, ok_bind, npZip_of_length _ (by simp [hl]), ok_bind,
    npZip_of_length _ (by show (hammingWindow _).length = _; rw [hham]), ok_bind, pyGet_of_lt (show 1 < ts.length by omega), ok_bind,
    pyGet_of_lt (show 0 < ts.length by omega), ok_bind, if_neg hne]
  set residual := List.zipWith (fun x y : ℝ => x - y) ds (ts.map trend) with hres
  set w := pad cfg.padding (List.zipWith (· * ·) ((fourierLib base).hamming residual.length) residual)
  obtain ⟨o1, o2, -, -, -⟩ := C43_order (rfftfreq w.length (ts[1] - ts[0])) ((fourierLib base).spectrum w)
    (one_div_pos.mpr hdT) h1 h2 h3 h4 h5
  generalize detect (rfftfreq w.length (ts[1] - ts[0])) ((fourierLib base).spectrum w) (1 / o.dT c) cfg.spinLo cfg.spinHi
    cfg.eccLo cfg.eccHi = r at o1 o2 ⊢
  have hf0 : 0 < r.1 := lt_of_lt_of_le o1 o2
  obtain ⟨mask, hmask⟩ := mapM_id_total (l := lowpassMask (fourierLib base).pi (fourierLib base).cos r.1 cfg.taper
    (rfftfreq (pad cfg.padding residual).length (ts[1] - ts[0]))) (by
      intro x hx
      obtain ⟨f, -, rfl⟩ := List.mem_map.mp hx
      obtain ⟨m, hm, -⟩ := C42_mask hf0 htaper f
      exact ⟨m, hm⟩)
  rw [hmask]
  dsimp only
  rw [npZip_of_length]
  · exact ⟨_, rfl⟩
  · show (ts.map trend).length = (pySlice (lowpassFFT (pad cfg.padding residual) mask) cfg.padding
      (-(cfg.padding : ℤ))).length
    have hpl : (pad cfg.padding residual).length = 2 * cfg.padding + ts.length := by
      simp only [pad, List.length_append, List.length_replicate, hzl]
      omega
    unfold pySlice
    rw [lowpass_length, hpl]
    have hb1 : pyBound (2 * cfg.padding + ts.length) (cfg.padding : ℤ) = cfg.padding := by
      unfold pyBound; split <;> omega
    have hb2 : pyBound (2 * cfg.padding + ts.length) (-(cfg.padding : ℤ)) = cfg.padding + ts.length := by
      unfold pyBound; split <;> omega
    rw [hb1, hb2, List.length_drop, List.length_take, lowpass_length, hpl, List.length_map]
    omega

/-! ## Cases that meet the hypotheses -/

/-- A mask that keeps two of the three frequencies of four samples. -/
example : lowpassFFT (oscillation 4 2 3 0) [1, 1, 0] = oscillation 4 2 0 0 := by
  have := C94_oscillation 4 2 3 0 [1, 1, 0] 0 rfl rfl (by norm_num)
  simpa using this

namespace FourierDemo

/-- Data without trend. -/
noncomputable def base : FilterLib ℝ :=
  { pi := 0, cos := id, fit := fun _ _ _ _ => .ok fun _ => 0, peaks := fun _ _ => .ok [], cubic := fun _ _ => .ok id,
    spectrum := id, lowpass := fun x _ => x, hamming := fun _ => [], hanning := fun _ => [] }

/-- The default options, with a short padding. -/
noncomputable def cfg : FilterCfg ℝ :=
  { threshold := 1 / 2, alpha := 1 / 2, segmentSize := 10, kindForCheck := none, kindForSpin := none, debugLevel := 0,
    doNotFilter := false, padding := 3, taper := 3 / 20, spinLo := 4 / 5, spinHi := 6 / 5, eccLo := 3 / 10, eccHi := 4 / 5 }

/-- Three samples, crossings one time unit apart. -/
noncomputable def obj : FilterObj ℝ := { t := [0, 1, 2], data := [5, 6, 9], kind := .amp, tMerger := 10, dT := fun _ => 1 }

theorem seg_eq : makeSegment cfg obj 1 = .ok ([0, 1, 2], [5, 6, 9]) := by
  unfold makeSegment
  simp only [cfg, obj, pyGet, pyLast, searchSorted, searchRight]
  norm_num [bind, Except.bind, pure, Except.pure, List.takeWhile]

/-- The segment is filtered, and the theorem above applies to it. -/
example : ∃ seg, filterSegment (fourierLib base) cfg obj 1 = .ok seg ∧ seg.t = [0, 1, 2] := by
  obtain ⟨seg, h⟩ := C94_defined base cfg obj 1 _ _ (fun _ => 0) (by norm_num [obj]) (by norm_num [cfg]) (by norm_num [cfg])
    (by norm_num [cfg]) (by norm_num [cfg]) (by norm_num [cfg]) (by norm_num [cfg]) (by norm_num [cfg]) seg_eq rfl (by simp)
    (by norm_num) rfl
  obtain ⟨ts, ds, _, _, _, _, _, _, _, _, _, h1, h2, _⟩ := C94_segment base cfg obj 1 seg (by norm_num [obj]) (by norm_num [cfg])
    (by norm_num [cfg]) (by norm_num [cfg]) (by norm_num [cfg]) (by norm_num [cfg]) (by norm_num [cfg])
    (by norm_num [obj]) h
  rw [seg_eq] at h1
  cases h1
  exact ⟨seg, h, h2⟩

end FourierDemo

end GwEcc.Filter
