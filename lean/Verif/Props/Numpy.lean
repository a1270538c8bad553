import Verif.Lemmas.Numpy
import Verif.Props.Keys
import Verif.Props.PhaseOrigin
import Mathlib.Analysis.Real.Pi.Bounds

/-!
# C118: amplitude and phase of complex modes
-/

namespace GwEcc

open Spec Compare

/-- A complex mode whose amplitude nowhere vanishes and whose phase changes by less than half a turn from sample to sample is
split into just this amplitude and this phase, up to a number of turns, the same at all samples. -/
theorem C118_recovers (m : List (ℝ × ℝ)) (h : WellSampled m) :
    Numpy.abs (combine m) = m.map (·.1) ∧ ∃ k : ℤ, Numpy.phase (combine m) = m.map fun s => s.2 + 2 * Real.pi * k := by
  constructor
  · unfold Numpy.abs combine
    rw [List.map_map]
    exact List.map_congr_left fun s hs => Numpy.norm_sample (h.positive s hs).le
  · obtain ⟨k, hk⟩ := Numpy.phase_const h
    refine ⟨k, ?_⟩
    have := Numpy.list_shift (p := m.map (·.2)) (q := Numpy.phase (combine m)) (c := 2 * Real.pi * k) ?_ fun i x hx => ?_
    · rw [this, List.map_map]
      rfl
    · rw [Numpy.phase_length, List.length_map]
      exact (List.length_map _).symm
    · rw [List.getElem?_map] at hx
      obtain ⟨s, hs, rfl⟩ := Option.map_eq_some_iff.mp hx
      exact hk i s hs

/-- Every complex mode, with zeros or not, is recovered exactly from its amplitude and phase, and the phase never changes by more than half
a turn from sample to sample. -/
theorem C118_recombine (l : List ℂ) :
    Numpy.polar (Numpy.abs l) (Numpy.phase l) = .ok l ∧
      ∀ i x y, (Numpy.phase l)[i]? = some x → (Numpy.phase l)[i + 1]? = some y → |y - x| ≤ Real.pi := by
  refine ⟨?_, fun i x y hx hy => Numpy.phase_step hx hy⟩
  rw [Numpy.polar_eq (by rw [Numpy.abs_length, Numpy.phase_length]), Numpy.combine_abs_phase]

/-- Where the phase given changes by more than half a turn between two samples, it is not recovered. -/
theorem C118_undersampled (m : List (ℝ × ℝ)) (i : ℕ) (s s' : ℝ × ℝ) (h1 : m[i]? = some s) (h2 : m[i + 1]? = some s')
    (h : Real.pi < |s'.2 - s.2|) (c : ℝ) : Numpy.phase (combine m) ≠ m.map fun s => s.2 + c := by
  intro he
  have e1 : (Numpy.phase (combine m))[i]? = some (s.2 + c) := by rw [he, List.getElem?_map, h1]; rfl
  have e2 : (Numpy.phase (combine m))[i + 1]? = some (s'.2 + c) := by rw [he, List.getElem?_map, h2]; rfl
  have := Numpy.phase_step e1 e2
  rw [add_sub_add_right_eq_sub] at this
  exact absurd this (not_le.mpr h)

/-- A change of the phase by exactly half a turn can be unwrapped the wrong way: the amplitudes 1, 1 and phases 0, π come back as
1, 1 and 0, -π. -/
theorem C118_half_turn_needed : Numpy.phase (combine [(1, 0), (1, Real.pi)]) = [0, -Real.pi] := by
  have e : combine [(1, 0), (1, Real.pi)] = [1, -1] := by
    unfold combine
    have : -Complex.I * (Real.pi : ℂ) = -(Real.pi * Complex.I) := by ring
    simp only [List.map_cons, List.map_nil, this, Complex.exp_neg, Complex.exp_pi_mul_I]
    norm_num
  rw [e]
  have hp := Real.pi_pos
  have hs : unwrapStep Real.pi (Real.pi - 0) = 0 := by
    have hm : pyMod (Real.pi - 0 + Real.pi) (2 * Real.pi) = 0 := by
      unfold pyMod
      have h1 : (Real.pi - 0 + Real.pi) / (2 * Real.pi) = 1 := by field_simp; ring
      rw [h1, Int.floor_one]
      push_cast
      ring
    unfold unwrapStep
    dsimp only
    rw [if_neg (by rw [sub_zero, abs_of_pos hp]; exact lt_irrefl _), if_pos ⟨by rw [hm, zero_sub], by rw [sub_zero]; exact hp⟩]
    ring
  unfold Numpy.phase
  simp only [List.map_cons, List.map_nil, Complex.arg_one, Complex.arg_neg_one, unwrap, unwrapFrom, hs]
  norm_num

/-- Multiplication by a constant of modulus one changes the phase by a constant, unless the mode has zeros or jumps by half a turn. -/
theorem Numpy.turn_same {l : List ℂ} (hl : NoHalfTurn l) {c : ℂ} (hc : ‖c‖ = 1) :
    Numpy.abs (l.map (· * c)) = Numpy.abs l ∧ ∃ x, Numpy.phase (l.map (· * c)) = (Numpy.phase l).map (· + x) := by
  constructor
  · unfold Numpy.abs
    rw [List.map_map]
    refine List.map_congr_left fun z _ => ?_
    show ‖z * c‖ = ‖z‖
    rw [norm_mul, hc, mul_one]
  rcases hl with ⟨hn, hj⟩ | hz
  swap
  · refine ⟨0, ?_⟩
    have : l.map (· * c) = l := by
      conv_rhs => rw [← List.map_id l]
      refine List.map_congr_left fun z h => ?_
      rw [hz z h]
      simp
    rw [this]
    simp
  -- amplitude and phase of the mode
  obtain ⟨m, hm⟩ : ∃ m, m = (Numpy.abs l).zip (Numpy.phase l) := ⟨_, rfl⟩
  have hlm : l = combine m := by rw [hm, Numpy.combine_abs_phase]
  have get : ∀ (i : ℕ) (s : ℝ × ℝ), m[i]? = some s → ∃ z, l[i]? = some z ∧ s.1 = ‖z‖ ∧ (Numpy.phase l)[i]? = some s.2 := by
    intro i s hs
    rw [hm, List.getElem?_zip_eq_some] at hs
    obtain ⟨h1, h2⟩ := hs
    unfold Numpy.abs at h1
    rw [List.getElem?_map] at h1
    obtain ⟨z, hz, e⟩ := Option.map_eq_some_iff.mp h1
    exact ⟨z, hz, e.symm, h2⟩
  have ws : WellSampled m := by
    constructor
    · intro s hs
      obtain ⟨i, hi⟩ := List.mem_iff_getElem?.mp hs
      obtain ⟨z, hz, e, _⟩ := get i s hi
      rw [e]
      exact norm_pos_iff.mpr (hn z (List.mem_of_getElem? hz))
    · intro i s s' hs hs'
      obtain ⟨z, hz, ez, pz⟩ := get i s hs
      obtain ⟨w, hw, ew, pw⟩ := get (i + 1) s' hs'
      refine lt_of_le_of_ne (Numpy.phase_step pz pw) fun he => ?_
      have nz : 0 < ‖z‖ := norm_pos_iff.mpr (hn z (List.mem_of_getElem? hz))
      have nw : 0 < ‖w‖ := norm_pos_iff.mpr (hn w (List.mem_of_getElem? hw))
      refine hj i z w hz hw (‖w‖ / ‖z‖) (div_pos nw nz) ?_
      have bz := Numpy.sample_back hz pz
      have bw := Numpy.sample_back hw pw
      have ex : Complex.exp (-Complex.I * s'.2) = -Complex.exp (-Complex.I * s.2) := by
        have hd : s'.2 - s.2 = Real.pi ∨ s'.2 - s.2 = -Real.pi := (abs_eq Real.pi_pos.le).mp he
        have : -Complex.I * (s'.2 : ℂ) = -Complex.I * s.2 + -Complex.I * ((s'.2 - s.2 : ℝ) : ℂ) := by push_cast; ring
        rw [this, Complex.exp_add]
        rcases hd with hd | hd
        · have : -Complex.I * ((s'.2 - s.2 : ℝ) : ℂ) = -(Real.pi * Complex.I) := by rw [hd]; ring
          rw [this, Complex.exp_neg, Complex.exp_pi_mul_I]
          norm_num
        · have : -Complex.I * ((s'.2 - s.2 : ℝ) : ℂ) = Real.pi * Complex.I := by rw [hd]; push_cast; ring
          rw [this, Complex.exp_pi_mul_I]
          norm_num
      rw [ex] at bw
      have hz0 : ((‖z‖ : ℝ) : ℂ) ≠ 0 := by exact_mod_cast nz.ne'
      calc w = ((‖w‖ : ℝ) : ℂ) * -Complex.exp (-Complex.I * s.2) := bw.symm
        _ = -(((‖w‖ / ‖z‖ : ℝ) : ℂ) * (((‖z‖ : ℝ) : ℂ) * Complex.exp (-Complex.I * s.2))) := by
          rw [Complex.ofReal_div]
          field_simp
        _ = -(((‖w‖ / ‖z‖ : ℝ) : ℂ) * z) := by rw [bz]
  -- the same after the rotation
  have hrot : l.map (· * c) = combine (m.map fun s => (s.1, s.2 - Complex.arg c)) := by
    rw [hlm]
    unfold combine
    rw [List.map_map, List.map_map]
    refine List.map_congr_left fun s _ => ?_
    show (s.1 : ℂ) * Complex.exp (-Complex.I * s.2) * c = s.1 * Complex.exp (-Complex.I * ((s.2 - Complex.arg c : ℝ) : ℂ))
    have h1 : c = Complex.exp (Complex.arg c * Complex.I) := by
      have := Complex.norm_mul_exp_arg_mul_I c
      rw [hc] at this
      simpa using this.symm
    have h2 : -Complex.I * ((s.2 - Complex.arg c : ℝ) : ℂ) = -Complex.I * s.2 + Complex.arg c * Complex.I := by push_cast; ring
    rw [h2, Complex.exp_add, ← h1, mul_assoc]
  have ws' : WellSampled (m.map fun s => (s.1, s.2 - Complex.arg c)) := by
    constructor
    · intro s hs
      obtain ⟨r, hr, rfl⟩ := List.mem_map.mp hs
      exact ws.positive r hr
    · intro i s s' hs hs'
      rw [List.getElem?_map] at hs hs'
      obtain ⟨r, hr, rfl⟩ := Option.map_eq_some_iff.mp hs
      obtain ⟨r', hr', rfl⟩ := Option.map_eq_some_iff.mp hs'
      dsimp only
      rw [sub_sub_sub_cancel_right]
      exact ws.steps i r r' hr hr'
  obtain ⟨_, k', hk'⟩ := C118_recovers _ ws'
  rw [← hrot, List.map_map] at hk'
  refine ⟨-Complex.arg c + 2 * Real.pi * k', ?_⟩
  have hp : Numpy.phase l = m.map (·.2) := by
    rw [hm]
    exact (List.map_snd_zip (by rw [Numpy.abs_length, Numpy.phase_length])).symm
  rw [hk', hp, List.map_map]
  refine List.map_congr_left fun s _ => ?_
  show s.2 - Complex.arg c + 2 * Real.pi * k' = s.2 + (-Complex.arg c + 2 * Real.pi * k')
  ring

/-- numpy's routines meet what C102 assumes of them, for modes without zeros and jumps by half a turn, if the rotation of the source changes its modes
in the coprecessing frame by constant factors of modulus one. -/
theorem C118_turn (rotate : List ℝ → List (List ℂ) → Py (List (List ℂ))) (α : ℝ)
    (hr : ∀ t cols r, rotate t cols = .ok r → ∃ r', rotate t (turnColumns (turnBy α) cols) = .ok r' ∧
      List.Forall₂ (fun l l' => ∃ c : ℂ, ‖c‖ = 1 ∧ l' = l.map (· * c)) r r')
    (he : ∀ t cols err, rotate t cols = .error err → rotate t (turnColumns (turnBy α) cols) = .error err) :
    WaveTurnFree (Numpy.wave rotate) NoHalfTurn (turnBy α) where
  zero := fun k => zero_mul _
  same := by
    intro k l hl
    refine Numpy.turn_same hl ?_
    have : -Complex.I * (((k.2 * α : ℝ)) : ℂ) = ((-(k.2 * α) : ℝ) : ℂ) * Complex.I := by push_cast; ring
    rw [this, Complex.norm_exp_ofReal_mul_I]
  polar := by
    intro k a p
    show Numpy.polar a (p.map (· + (k.2 * α : ℝ))) = (Numpy.polar a p).map (List.map fun z => z * Complex.exp (-Complex.I * (k.2 * α : ℝ)))
    unfold Numpy.polar
    rw [List.length_map]
    split
    · refine congrArg Except.ok ?_
      rw [List.zipWith_map_right, List.map_zipWith]
      congr 1
      funext x y
      have : -Complex.I * ((y + k.2 * α : ℝ) : ℂ) = -Complex.I * y + -Complex.I * ((k.2 * α : ℝ) : ℂ) := by push_cast; ring
      rw [this, Complex.exp_add, mul_assoc]
    · rfl
  rotate := by
    intro t cols r h
    obtain ⟨r', h1, h2⟩ := hr t cols r h
    refine ⟨r', h1, ?_⟩
    refine h2.imp ?_
    rintro l l' ⟨c, hc, rfl⟩ hl
    exact Numpy.turn_same hl hc
  rotateError := he

/-- C102 with numpy's routines: a whole call with the source rotated by an angle returns the same, if no mode vanishes or jumps by exactly half a turn. -/
theorem C102_numpy (fuel : ℕ) (lib : Libs ℝ ℂ) (rotate : List ℝ → List (List ℂ) → Py (List (List ℂ)))
    (hwave : lib.wave = Numpy.wave rotate) (α α0 : ℝ)
    (hr : ∀ β ∈ [α, α0], ∀ t cols r, rotate t cols = .ok r → ∃ r', rotate t (turnColumns (turnBy β) cols) = .ok r' ∧
      List.Forall₂ (fun l l' => ∃ c : ℂ, ‖c‖ = 1 ∧ l' = l.map (· * c)) r r')
    (he : ∀ β ∈ [α, α0], ∀ t cols err, rotate t cols = .error err → rotate t (turnColumns (turnBy β) cols) = .error err)
    (hcubic : ∀ t p c x, lib.fits.cubic t (p.map (· + c)) x = (lib.fits.cubic t p x).map (· + c))
    (hfits : FindsPeaks lib.fits.findPeaks)
    (hpeaks : ∀ kw d l, lib.peaks kw d = .ok l → l.Pairwise (· < ·) ∧ ∀ i ∈ l, i < d.length)
    (a : Call ℝ ℂ) (ha : TurnFreeCall lib.wave NoHalfTurn a) :
    (run fuel lib (turnCall (turnBy α) (turnBy α0) a)).map (·.map (·.ret)) = (run fuel lib a).map (·.map (·.ret)) :=
  C102_rotation fuel lib NoHalfTurn _ _ a
    ⟨hwave ▸ C118_turn rotate α (hr α (by simp)) (he α (by simp)), hwave ▸ C118_turn rotate α0 (hr α0 (by simp)) (he α0 (by simp)),
      hcubic, hfits, hpeaks⟩ ha

/-- A jump by exactly half a turn is unwrapped downwards, and upwards after a rotation of the source by half a turn. -/
theorem C102_half_turn_needed : Numpy.phase [1, -1] = [0, -Real.pi] ∧ Numpy.phase ([1, -1].map (· * (-1))) = [-Real.pi, 0] := by
  have hp := Real.pi_pos
  have h1 : unwrapStep Real.pi (Real.pi - 0) = 0 := by
    have hm : pyMod (Real.pi - 0 + Real.pi) (2 * Real.pi) = 0 := by
      unfold pyMod
      have h1 : (Real.pi - 0 + Real.pi) / (2 * Real.pi) = 1 := by field_simp; ring
      rw [h1, Int.floor_one]
      push_cast
      ring
    unfold unwrapStep
    dsimp only
    rw [if_neg (by rw [sub_zero, abs_of_pos hp]; exact lt_irrefl _), if_pos ⟨by rw [hm, zero_sub], by rw [sub_zero]; exact hp⟩]
    ring
  have h2 : unwrapStep Real.pi (0 - Real.pi) = 0 := by
    have hm : pyMod (0 - Real.pi + Real.pi) (2 * Real.pi) = 0 := by
      unfold pyMod
      simp
    unfold unwrapStep
    dsimp only
    rw [if_neg (by rw [zero_sub, abs_neg, abs_of_pos hp]; exact lt_irrefl _), if_neg (fun h => by linarith [h.2]), hm]
    ring
  unfold Numpy.phase
  constructor
  · simp only [List.map_cons, List.map_nil, Complex.arg_one, Complex.arg_neg_one, unwrap, unwrapFrom, h1]
    norm_num
  · simp only [List.map_cons, List.map_nil, mul_neg, mul_one, neg_neg, Complex.arg_one, Complex.arg_neg_one, unwrap, unwrapFrom, h2]
    norm_num

/-! ### What the other properties assume of these routines -/

theorem Numpy.take_unwrapFrom (pi : ℝ) (n : ℕ) (l : List ℝ) (prev acc : ℝ) :
    unwrapFrom pi prev acc (l.take n) = (unwrapFrom pi prev acc l).take n := by
  induction l generalizing n prev acc with
  | nil => simp [unwrapFrom]
  | cons x l ih =>
    cases n with
    | zero => simp [unwrapFrom]
    | succ n => simp only [List.take_succ_cons, unwrapFrom, ih]

theorem Numpy.take_unwrap (pi : ℝ) (n : ℕ) (l : List ℝ) : unwrap pi (l.take n) = (unwrap pi l).take n := by
  cases l with
  | nil => simp [unwrap]
  | cons x l =>
    cases n with
    | zero => simp [unwrap]
    | succ n => simp only [List.take_succ_cons, unwrap, Numpy.take_unwrapFrom]

/-- Amplitude, phase and total amplitude at a sample do not depend on later samples (assumed by C104). -/
theorem C118_sample_by_sample (rotate : List ℝ → List (List ℂ) → Py (List (List ℂ))) : SampleBySample (Numpy.wave rotate) where
  abs := fun n l => List.map_take
  phase := by
    intro n l
    show Numpy.phase (l.take n) = (Numpy.phase l).take n
    unfold Numpy.phase
    rw [List.map_take, Numpy.take_unwrap, List.map_take]
  total := by
    intro n L ls h
    show Numpy.totalAmp (ls.map (·.take n)) = (Numpy.totalAmp ls).map (·.take n)
    cases ls with
    | nil => rfl
    | cons l rest =>
      have hl := h l (List.mem_cons_self ..)
      have c1 : rest.all (fun r => decide (r.length = l.length)) = true := by
        rw [List.all_eq_true]
        intro r hr
        exact decide_eq_true ((h r (List.mem_cons_of_mem _ hr)).trans hl.symm)
      have c2 : (rest.map (·.take n)).all (fun r => decide (r.length = (l.take n).length)) = true := by
        rw [List.all_eq_true]
        intro r hr
        obtain ⟨x, hx, rfl⟩ := List.mem_map.mp hr
        refine decide_eq_true ?_
        rw [List.length_take, List.length_take, h x (List.mem_cons_of_mem _ hx), hl]
      unfold Numpy.totalAmp
      rw [List.map_cons]
      dsimp only
      rw [if_pos c1, if_pos c2]
      refine congrArg Except.ok ?_
      dsimp only
      rw [← List.map_take, List.take_range, List.length_take]
      refine List.map_congr_left fun i hi => ?_
      congr 1
      rw [← List.map_cons (f := fun r : List ℝ => r.take n), List.map_map]
      refine List.map_congr_left fun r _ => ?_
      have hi : i < n := (List.mem_range.mp hi).trans_le (min_le_left _ _)
      show (r.take n).getD i 0 = r.getD i 0
      rw [List.getD_eq_getElem?_getD, List.getD_eq_getElem?_getD, List.getElem?_take, if_pos hi]

/-- Amplitude and phase of modes in other units (assumed by C85 of these routines), if the rotation knows nothing about units. -/
theorem C118_units (rotate : List ℝ → List (List ℂ) → Py (List (List ℂ))) (k c c0 s : ℝ) (hs : 0 < s)
    (hr : ∀ c t cols, rotate (t.map (newTime k c)) (cols.map (List.map ((s : ℂ) * ·))) =
      (rotate t cols).map (List.map (List.map ((s : ℂ) * ·)))) :
    WaveUnitFree (Numpy.wave rotate) { k := k, c := c, c0 := c0, s := s, scale := ((s : ℂ) * ·) } where
  zero := mul_zero _
  abs := by
    intro l
    show Numpy.abs (l.map ((s : ℂ) * ·)) = (Numpy.abs l).map (s * ·)
    unfold Numpy.abs
    rw [List.map_map, List.map_map]
    refine List.map_congr_left fun z _ => ?_
    show ‖(s : ℂ) * z‖ = s * ‖z‖
    rw [norm_mul, Complex.norm_real, Real.norm_of_nonneg hs.le]
  phase := by
    intro l
    show Numpy.phase (l.map ((s : ℂ) * ·)) = Numpy.phase l
    unfold Numpy.phase
    rw [List.map_map]
    congr 2
    refine List.map_congr_left fun z _ => ?_
    exact Complex.arg_real_mul z hs
  polar := by
    intro a p
    show Numpy.polar (a.map (s * ·)) p = (Numpy.polar a p).map (List.map ((s : ℂ) * ·))
    unfold Numpy.polar
    rw [List.length_map]
    split
    · refine congrArg Except.ok ?_
      rw [List.zipWith_map_left, List.map_zipWith]
      congr 1
      funext x y
      push_cast
      ring
    · rfl
  rotate := hr
  total := by
    intro ls
    show Numpy.totalAmp (ls.map (List.map (s * ·))) = (Numpy.totalAmp ls).map (List.map (s * ·))
    cases ls with
    | nil => rfl
    | cons l rest =>
      unfold Numpy.totalAmp
      rw [List.map_cons]
      dsimp only
      have e : (rest.map (List.map (s * ·))).all (fun r => decide (r.length = (l.map (s * ·)).length)) =
          rest.all fun r => decide (r.length = l.length) := by
        rw [List.all_map]
        congr 1
        funext r
        simp only [Function.comp, List.length_map]
      rw [e]
      split
      · refine congrArg Except.ok ?_
        rw [List.map_map, List.length_map]
        refine List.map_congr_left fun i _ => ?_
        show ampAllAmplm _ = s * ampAllAmplm _
        unfold ampAllAmplm
        have fold : ∀ (m : List ℝ) (acc : ℝ), (m.map (s * ·)).foldl (fun amp a => amp + a ^ 2) (s ^ 2 * acc) =
            s ^ 2 * m.foldl (fun amp a => amp + a ^ 2) acc := by
          intro m
          induction m with
          | nil => exact fun _ => rfl
          | cons x m ih =>
            intro acc
            rw [List.map_cons, List.foldl_cons, List.foldl_cons, ← ih]
            congr 1
            ring
        have e2 : ((l.map (s * ·)) :: rest.map (List.map (s * ·))).map (fun r => r.getD i 0) =
            (((l :: rest).map fun r => r.getD i 0).map (s * ·)) := by
          rw [← List.map_cons (f := List.map (s * ·)), List.map_map, List.map_map]
          refine List.map_congr_left fun r _ => ?_
          show (r.map (s * ·)).getD i 0 = s * r.getD i 0
          rw [List.getD_eq_getElem?_getD, List.getD_eq_getElem?_getD, List.getElem?_map]
          cases r[i]? <;> simp
        rw [e2]
        have := fold ((l :: rest).map fun r => r.getD i 0) 0
        rw [mul_zero] at this
        rw [this, Real.sqrt_mul (by positivity), Real.sqrt_sq hs.le]
      · rfl

/-! ### The whole call -/

/-- Adding turns. -/
noncomputable def Numpy.turns (n : LM → ℤ) : Turn ℝ ℂ where
  num := fun _ z => z
  angle := fun k => 2 * Real.pi * n k

theorem Numpy.turns_free (rotate : List ℝ → List (List ℂ) → Py (List (List ℂ))) (n : LM → ℤ) :
    WaveTurnFree (Numpy.wave rotate) (fun _ => True) (Numpy.turns n) := by
  have hid : ∀ k, List.map ((Numpy.turns n).num k) = id := fun k => funext fun l => List.map_id l
  have hcols : ∀ cols, turnColumns (Numpy.turns n) cols = cols := by
    intro cols
    unfold turnColumns
    refine List.ext_getElem (by simp) fun i h1 h2 => ?_
    rw [List.getElem_mapIdx, hid]
    rfl
  have refl : ∀ r : List (List ℂ), List.Forall₂ (fun l l' => True → SameUpToPhase (Numpy.wave rotate) l l') r r := by
    intro r
    exact List.forall₂_same.mpr fun l _ _ => ⟨rfl, 0, by simp⟩
  refine ⟨fun k => rfl, fun k l _ => ?_, fun k a p => ?_, fun t cols r h => ⟨r, by rw [hcols]; exact h, refl r⟩,
    fun t cols err h => by rw [hcols]; exact h⟩
  · rw [hid]
    exact ⟨rfl, 0, by simp⟩
  · rw [hid]
    have e : (Except.map id (Numpy.polar a p)) = Numpy.polar a p := by cases Numpy.polar a p <;> rfl
    refine Eq.trans ?_ e.symm
    show Numpy.polar a (p.map (· + 2 * Real.pi * n k)) = Numpy.polar a p
    unfold Numpy.polar
    rw [List.length_map]
    split
    · refine congrArg Except.ok ?_
      rw [List.zipWith_map_right]
      congr 1
      funext x y
      have : -Complex.I * ((y + 2 * Real.pi * n k : ℝ) : ℂ) = -Complex.I * y + ((-n k : ℤ) : ℂ) * (2 * Real.pi * Complex.I) := by
        push_cast; ring
      rw [this, Complex.exp_add, Complex.exp_int_mul_two_pi_mul_I, mul_one]
    · rfl

/-- The numbers of turns by which the phases split off differ from those given. -/
theorem Numpy.turns_of {M : Dict LM (List (ℝ × ℝ))} (hn : M.keys.Nodup) (h : ∀ p ∈ M, WellSampled p.2) :
    ∃ n : LM → ℤ, ∀ p ∈ M, Numpy.phase (combine p.2) = (p.2.map (·.2)).map (· + 2 * Real.pi * n p.1) := by
  have : ∀ k, ∃ j : ℤ, ∀ m, M.get? k = some m → Numpy.phase (combine m) = (m.map (·.2)).map (· + 2 * Real.pi * j) := by
    intro k
    cases hk : M.get? k with
    | none => exact ⟨0, fun m hm => by cases hm⟩
    | some m =>
      obtain ⟨_, j, hj⟩ := C118_recovers m (h _ (mem_of_get? hk))
      refine ⟨j, fun m' hm' => ?_⟩
      cases hm'
      rw [hj, List.map_map]
      rfl
  choose n hn' using this
  exact ⟨n, fun p hp => hn' p.1 p.2 (get?_of_mem hn hp)⟩

theorem Numpy.turnDict_get? (u u0 : Turn ℝ ℂ) (v : DataV ℝ ℂ) (key : String) :
    (turnDict u u0 v).get? key = (v.get? key).map (turnEntry u u0 key) :=
  Dict.get?_mapE (fun k e => turnEntry u u0 k e) v key

theorem Numpy.complexAndPolar {rotate : List ℝ → List (List ℂ) → Py (List (List ℂ))} {tag : String} {v v' : DataV ℝ ℂ}
    (htag : tag = "" ∨ tag = "_zeroecc") (h : SameModes tag v v') :
    ∃ n : LM → ℤ, ∀ u u0 : Turn ℝ ℂ, (if tag = "" then u else u0) = Numpy.turns n →
      ComplexAndPolar (Numpy.wave rotate) tag v (turnDict u u0 v') := by
  obtain ⟨M, h0, hw, h1, h2, h3, h4, h5, h6⟩ := h
  obtain ⟨n, hn⟩ := Numpy.turns_of h0 hw
  refine ⟨n, fun u u0 hu => ⟨_, ?_, h1, h2, h3, ?_, ?_, ?_⟩⟩
  · rw [keys_map]; exact h0
  · rw [Numpy.turnDict_get?, h4]; rfl
  · rw [Numpy.turnDict_get?, h5, List.map_map]
    have e : turnEntry u u0 ("amplm" ++ tag) = id := by
      unfold turnEntry
      rcases htag with rfl | rfl <;> simp
    rw [e]
    refine congrArg (fun x => some (Entry.modesR x)) (List.map_congr_left fun p hp => ?_)
    exact congrArg (Prod.mk p.1) (C118_recovers _ (hw p hp)).1.symm
  · rw [Numpy.turnDict_get?, h6, List.map_map]
    have e : turnEntry u u0 ("phaselm" ++ tag) = turnPhase (Numpy.turns n) := by
      unfold turnEntry
      rcases htag with rfl | rfl
      · rw [if_pos rfl] at hu
        subst hu
        simp
      · rw [if_neg (by decide)] at hu
        subst hu
        simp
    rw [e]
    show some (Entry.modesR (List.map _ (List.map _ M))) = _
    rw [List.map_map]
    refine congrArg (fun x => some (Entry.modesR x)) (List.map_congr_left fun p hp => ?_)
    exact congrArg (Prod.mk p.1) (hn p hp).symm

/-- A whole call returns the same reference points, eccentricities and mean anomalies, or the same failure, whether the modes are given
as complex numbers or as the amplitudes and phases these were made from, whatever the phases at the start.  (`hr`: with precession in the inertial
frame no quasicircular waveform is given.) -/
theorem C118_call (fuel : ℕ) (lib : Libs ℝ ℂ) (rotate : List ℝ → List (List ℂ) → Py (List (List ℂ)))
    (hwave : lib.wave = Numpy.wave rotate)
    (hcubic : ∀ t p c x, lib.fits.cubic t (p.map (· + c)) x = (lib.fits.cubic t p x).map (· + c))
    (hfits : FindsPeaks lib.fits.findPeaks)
    (hpeaks : ∀ kw d l, lib.peaks kw d = .ok l → l.Pairwise (· < ·) ∧ ∀ i ∈ l, i < d.length)
    (a : Call ℝ ℂ) (v' : DataV ℝ ℂ) (h : SamePolar a.dataDict v')
    (hsamples : OneSampleEach lib.wave v')
    (hrot : ∀ t cols cols', rotate t cols = .ok cols' → ∀ l ∈ cols', l.length = t.length)
    (hr : (a.precessing = .isTrue ∧ a.frame = "inertial") → ∀ key ∈ ["hlm_zeroecc", "amplm_zeroecc", "phaselm_zeroecc"],
      a.dataDict.get? key = none ∧ v'.get? key = none)
    (hl : (a.level = -1 ∨ a.level = 0 ∨ a.level = 1) ∨
      (∀ k ∈ a.dataDict.keys, k ∈ recognised) ∧ ∀ k ∈ v'.keys, k ∈ recognised) :
    (run fuel lib a).map (·.map (·.ret)) = (run fuel lib { a with dataDict := v' }).map (·.map (·.ret)) := by
  obtain ⟨n, hn⟩ := Numpy.complexAndPolar (rotate := rotate) (Or.inl rfl) h.ecc
  have hz : ∃ n0 : LM → ℤ, ComplexAndPolar (Numpy.wave rotate) "_zeroecc" a.dataDict (turnDict (Numpy.turns n) (Numpy.turns n0) v') ∨
      ∀ key ∈ ["hlm_zeroecc", "amplm_zeroecc", "phaselm_zeroecc"],
        a.dataDict.get? key = (turnDict (Numpy.turns n) (Numpy.turns n0) v').get? key := by
    rcases h.zero with hz | hz
    · obtain ⟨n0, hn0⟩ := Numpy.complexAndPolar (rotate := rotate) (Or.inr rfl) hz
      exact ⟨n0, .inl (hn0 _ _ (if_neg (by decide)))⟩
    · refine ⟨fun _ => 0, .inr fun key hkey => ?_⟩
      rw [hz key hkey, Numpy.turnDict_get?]
      have e : ∀ e : Entry ℝ ℂ, turnEntry (Numpy.turns n) (Numpy.turns fun _ => 0) key e = e := by
        intro e
        simp only [List.mem_cons, List.not_mem_nil, or_false] at hkey
        unfold turnEntry
        rcases hkey with rfl | rfl | rfl
        · simp only [String.reduceEq, if_false, if_true]
          cases e <;> simp [turnComplex, Numpy.turns]
        · simp
        · simp only [String.reduceEq, if_false, if_true]
          cases e <;> simp [turnPhase, Numpy.turns]
      cases v'.get? key with
      | none => rfl
      | some x => exact congrArg some (e x).symm
  obtain ⟨n0, hz⟩ := hz
  have same : SameWaveform (Numpy.wave rotate) a.dataDict (turnDict (Numpy.turns n) (Numpy.turns n0) v') := by
    refine ⟨fun key hkey => ?_, hn _ _ (if_pos rfl), hz⟩
    rw [h.other key hkey, Numpy.turnDict_get?]
    have e : turnEntry (Numpy.turns n) (Numpy.turns n0) key = id := by
      simp only [List.mem_cons, List.not_mem_nil, or_false] at hkey
      unfold turnEntry
      rcases hkey with rfl | rfl | rfl | rfl <;> simp
    rw [e]
    cases v'.get? key <;> rfl
  have none_turn : ∀ {key}, v'.get? key = none → (turnDict (Numpy.turns n) (Numpy.turns n0) v').get? key = none := by
    intro key hk
    rw [Numpy.turnDict_get?, hk]
    rfl
  have r1 := C83_same_result fuel lib a (turnDict (Numpy.turns n) (Numpy.turns n0) v') (hwave ▸ same) (fun hp => ?_) ?_
  · have r2 := C102_rotation fuel lib (fun _ => True) (Numpy.turns n) (Numpy.turns n0) { a with dataDict := v' }
      ⟨hwave ▸ Numpy.turns_free rotate n, hwave ▸ Numpy.turns_free rotate n0, hcubic, hfits, hpeaks⟩
      ⟨hsamples, ?_, fun _ _ _ _ _ _ => trivial, fun _ _ _ _ _ _ _ _ _ _ _ _ => trivial, fun hm => ?_⟩
    · refine Eq.trans ?_ r2
      have r3 := congrArg (Option.map (Except.map fun r : Answer ℝ ℂ => r.ret)) r1
      rw [Option.map_map, Option.map_map] at r3
      have e : (Except.map (fun r : Answer ℝ ℂ => r.ret) ∘ Except.map quiet) =
          (Except.map (fun r : Answer ℝ ℂ => r.ret) : Py (Answer ℝ ℂ) → Py _) := by
        funext x
        cases x <;> rfl
      rw [e] at r3
      exact r3
    · rw [hwave]
      intro t cols cols' hc l hl'
      exact (Numpy.phase_length l).trans (hrot t cols cols' hc l hl')
    · have hp : a.precessing = .isTrue ∧ a.frame = "inertial" := by
        unfold mustTransform at hm
        simpa using hm
      have k1 := hr hp "amplm_zeroecc" (by simp)
      have k2 := hr hp "hlm_zeroecc" (by simp)
      refine ⟨fun _ => (has_false_iff _ _).mpr k1.2, fun _ => ⟨(has_false_iff _ _).mpr k2.2, fun d hd => ?_⟩⟩
      have hd : v'.get? "amplm_zeroecc" = some (.modesR d) := hd
      rw [k1.2] at hd
      cases hd
  · rw [hwave]
    have k1 := hr hp "amplm_zeroecc" (by simp)
    have k2 := hr hp "hlm_zeroecc" (by simp)
    have k3 := hr hp "phaselm_zeroecc" (by simp)
    refine ⟨fun l => (C118_recombine l).1, fun key hkey => ?_, .inl k2.1⟩
    simp only [List.mem_cons, List.not_mem_nil, or_false] at hkey
    rcases hkey with rfl | rfl
    · exact ⟨k1.1, none_turn k1.2⟩
    · exact ⟨k3.1, none_turn k3.2⟩
  · rcases hl with hl | ⟨h1, h2⟩
    · exact .inl hl
    · refine .inr ⟨h1, fun k hk => h2 k ?_⟩
      unfold turnDict at hk
      rwa [show Dict.keys (v'.map fun p => (p.1, turnEntry (Numpy.turns n) (Numpy.turns n0) p.1 p.2)) = v'.keys from Dict.keys_mapE _ v'] at hk

/-! ### The premises are met -/

namespace NumpyDemo

/-- An amplitude and a phase. -/
noncomputable def mode : List (ℝ × ℝ) := (List.range 6).map fun i : ℕ => ((i : ℝ) + 1, 3 * (i : ℝ) + 100)

theorem mode_well : WellSampled mode := by
  constructor
  · intro s hs
    obtain ⟨i, _, rfl⟩ := List.mem_map.mp hs
    positivity
  · intro i s s' hs hs'
    unfold mode at hs hs'
    rw [List.getElem?_map] at hs hs'
    obtain ⟨a, ha, rfl⟩ := Option.map_eq_some_iff.mp hs
    obtain ⟨b, hb, rfl⟩ := Option.map_eq_some_iff.mp hs'
    obtain ⟨_, rfl⟩ := List.getElem?_eq_some_iff.mp ha
    obtain ⟨_, rfl⟩ := List.getElem?_eq_some_iff.mp hb
    simp only [List.getElem_range]
    have : 3 * ((i + 1 : ℕ) : ℝ) + 100 - (3 * (i : ℝ) + 100) = 3 := by push_cast; ring
    rw [this, abs_of_pos (by norm_num)]
    exact Real.pi_gt_three

/-- The phase is recovered up to turns, here at least fifteen of them. -/
example : Numpy.abs (combine mode) = mode.map (·.1) ∧ ∃ k : ℤ, Numpy.phase (combine mode) = mode.map fun s => s.2 + 2 * Real.pi * k :=
  C118_recovers mode mode_well

example (c : ℝ) : Numpy.phase (combine [(1, 0), (1, 4)]) ≠ [(1, 0), (1, 4)].map fun s : ℝ × ℝ => s.2 + c :=
  C118_undersampled _ 0 (1, 0) (1, 4) rfl rfl (by rw [sub_zero, abs_of_pos (by norm_num)]; linarith [Real.pi_lt_d2]) c

example : NoHalfTurn [1, Complex.I, 0 + 3] := by
  refine .inl ⟨fun z hz => ?_, fun i z w hz hw r hr => ?_⟩
  · simp only [List.mem_cons, List.not_mem_nil, or_false] at hz
    rcases hz with rfl | rfl | rfl <;> norm_num
  · match i with
    | 0 =>
      cases hz; cases hw
      intro h
      have := congrArg Complex.im h
      simp at this
    | 1 =>
      cases hz; cases hw
      intro h
      have := congrArg Complex.re h
      simp at this
    | 2 => cases hw
    | i + 3 => cases hz

/-- A frame that does not rotate. -/
def rotate : List ℝ → List (List ℂ) → Py (List (List ℂ)) := fun t cols =>
  if cols.all (fun l => l.length = t.length) then .ok cols else .error .valueError

theorem rotate_all (α : ℝ) (t : List ℝ) (cols : List (List ℂ)) :
    (turnColumns (turnBy α) cols).all (fun l => decide (l.length = t.length)) = cols.all fun l => decide (l.length = t.length) := by
  rw [Bool.eq_iff_iff, List.all_eq_true, List.all_eq_true]
  unfold turnColumns
  constructor
  · intro h l hl
    obtain ⟨i, hi, rfl⟩ := List.mem_iff_getElem.mp hl
    have := h (cols[i].map ((turnBy α).num (2, (i : ℤ) - 2))) (List.mem_mapIdx.mpr ⟨i, hi, rfl⟩)
    rwa [List.length_map] at this
  · intro h l hl
    obtain ⟨i, hi, rfl⟩ := List.mem_mapIdx.mp hl
    rw [List.length_map]
    exact h _ (List.getElem_mem hi)

/-- The premises of `C118_turn`. -/
theorem turn_free (α : ℝ) : WaveTurnFree (Numpy.wave rotate) NoHalfTurn (turnBy α) := by
  refine C118_turn rotate α (fun t cols r h => ?_) fun t cols err h => ?_
  · unfold rotate at h ⊢
    rw [rotate_all]
    split at h
    · rename_i hc
      cases h
      refine ⟨_, if_pos hc, ?_⟩
      rw [List.forall₂_iff_get]
      unfold turnColumns
      refine ⟨by simp, fun i h1 h2 => ?_⟩
      refine ⟨Complex.exp (-Complex.I * ((((i : ℤ) - 2 : ℤ) : ℝ) * α : ℝ)), ?_, ?_⟩
      · have : ∀ x : ℝ, -Complex.I * (x : ℂ) = ((-x : ℝ) : ℂ) * Complex.I := by intro x; push_cast; ring
        rw [this, Complex.norm_exp_ofReal_mul_I]
      · simp only [List.get_eq_getElem, List.getElem_mapIdx]
        rfl
    · cases h
  · unfold rotate at h ⊢
    rw [rotate_all]
    split at h
    · cases h
    · rename_i hc
      rw [if_neg hc]
      exact h

/-- The premises of `C118_units`. -/
example (k c c0 s : ℝ) (hs : 0 < s) :
    WaveUnitFree (Numpy.wave rotate) { k := k, c := c, c0 := c0, s := s, scale := ((s : ℂ) * ·) } := by
  refine C118_units rotate k c c0 s hs fun c t cols => ?_
  unfold rotate
  have e : (cols.map (List.map ((s : ℂ) * ·))).all (fun l => decide (l.length = (t.map (newTime k c)).length)) =
      cols.all fun l => decide (l.length = t.length) := by
    rw [List.all_map]
    congr 1
    funext l
    simp only [Function.comp, List.length_map]
  rw [e]
  split <;> rfl

end NumpyDemo

end GwEcc
