import Verif.Props.LoadOptions

/-!
# C103: the binary a LAL waveform is generated for
-/

set_option linter.unusedSectionVars false

namespace GwEcc.Load

section lal
variable {K C : Type} [Field K] [LinearOrder K] [IsStrictOrderedRing K] [SMul K C]

theorem three_of_length {l : List K} (h : l.length = 3) : ∃ x y z, l = [x, y, z] := by
  match l, h with
  | [x, y, z], _ => exact ⟨x, y, z, rfl⟩

theorem alignSpin_length (chi : List K) : (alignSpin chi).length = chi.length := by
  unfold alignSpin
  split
  · simp only [List.length_append, List.length_map, List.length_take, List.length_drop]
    omega
  · rfl

theorem alignSpin_three (x y z : K) : alignSpin [x, y, z] = [0, 0, z] := by
  unfold alignSpin
  split
  · rfl
  · rename_i h
    simp only [inPlane, List.take_succ_cons, List.take_zero, List.map_cons, List.map_nil, List.sum_cons, List.sum_nil, add_zero,
      ne_eq, not_not] at h
    have hx : x = 0 := by
      have h1 := abs_nonneg x
      have h2 := abs_nonneg y
      exact abs_eq_zero.mp (le_antisymm (by linarith) h1)
    have hy : y = 0 := by
      have h1 := abs_nonneg x
      have h2 := abs_nonneg y
      exact abs_eq_zero.mp (le_antisymm (by linarith) h2)
    rw [hx, hy]

theorem checkSpins_ok {c1 c2 d1 d2 : List K} (h : checkSpins c1 c2 = .ok (d1, d2)) :
    ∃ x1 y1 z1 x2 y2 z2, c1 = [x1, y1, z1] ∧ c2 = [x2, y2, z2] ∧ |x1| + |y1| ≤ 1 / 10 ^ 5 ∧ |x2| + |y2| ≤ 1 / 10 ^ 5 ∧
      z1 ^ 2 ≤ 1 ∧ z2 ^ 2 ≤ 1 ∧ d1 = [0, 0, z1] ∧ d2 = [0, 0, z2] := by
  unfold checkSpins at h
  split at h
  · cases h
  rename_i hp
  dsimp only at h
  split at h
  · cases h
  rename_i h1
  split at h
  · cases h
  rename_i h2
  split at h
  · cases h
  rename_i h3
  split at h
  · cases h
  rename_i h4
  rw [alignSpin_length, not_not] at h3 h4
  obtain ⟨x1, y1, z1, rfl⟩ := three_of_length h3
  obtain ⟨x2, y2, z2, rfl⟩ := three_of_length h4
  rw [alignSpin_three] at h1
  rw [alignSpin_three] at h2
  simp only [alignSpin_three] at h
  cases h
  rw [not_or, not_lt, not_lt] at hp
  simp only [inPlane, List.take_succ_cons, List.take_zero, List.map_cons, List.map_nil, List.sum_cons, List.sum_nil, add_zero] at hp
  simp only [List.map_cons, List.map_nil, List.sum_cons, List.sum_nil, not_lt] at h1 h2
  exact ⟨x1, y1, z1, x2, y2, z2, rfl, rfl, hp.1, hp.2, by simpa using h1, by simpa using h2, rfl, rfl⟩

/-- **C103.**  A waveform loaded from LAL is that of one call of LAL: for the mass ratio, eccentricity and model asked for, spins with
the components along the axis asked for and none in the plane, a total mass of `M` solar masses (10 unless physical units are asked
for), seen face on, starting at the orbital frequency asked for and with the sampling asked for.  The times are evenly spaced, zero at
the peak, and the only mode is (2, 2).  Spins with components in the plane above 1e-5 or longer than 1 are not accepted. -/
theorem C103_call {lib : LoadLib K C} {kw : LalKw K} {t : List K} {hlm : Dict LM (List C)}
    (h : loadBase lib kw = .ok (t, hlm)) :
    ∃ (ap : String) (q e m0 M D x1 y1 z1 x2 y2 z2 : K) (a : LalArgs K) (strain : List C) (amp : List K) (peak : K × K),
      kw.approximant = some ap ∧ kw.q = some q ∧ kw.ecc = some e ∧ kw.momega0 = some m0 ∧ kw.chi1 = some [x1, y1, z1] ∧
      kw.chi2 = some [x2, y2, z2] ∧ |x1| + |y1| ≤ 1 / 10 ^ 5 ∧ |x2| + |y2| ≤ 1 / 10 ^ 5 ∧ z1 ^ 2 ≤ 1 ∧ z2 ^ 2 ≤ 1 ∧
      (if kw.physicalUnits then kw.M = some M ∧ kw.D = some D else M = 10 ∧ D = 1) ∧
      lib.choose a = .ok strain ∧ a.approximant = ap ∧ a.eccentricity = e ∧ a.chi1 = [0, 0, z1] ∧ a.chi2 = [0, 0, z2] ∧
      a.m1 = q * a.m2 ∧ a.m1 + a.m2 = M * lib.msun ∧ a.distance = D * 10 ^ 6 * lib.pc ∧ a.inclination = 0 ∧ a.phiRef = 0 ∧
      a.fLow * (lib.pi * (M * lib.mtsun)) = m0 ∧ a.fRef = a.fLow ∧ a.deltaT = kw.deltaTOverM * (M * lib.mtsun) ∧
      lib.amplitude hlm = .ok amp ∧
      peakTime ((List.range strain.length).map fun k : ℕ => (if kw.physicalUnits then a.deltaT else kw.deltaTOverM) * k) amp = .ok peak ∧
      t = (List.range strain.length).map (fun k : ℕ => (if kw.physicalUnits then a.deltaT else kw.deltaTOverM) * k - peak.1) ∧
      hlm = [((2, 2), strain.map fun x =>
        lib.divYlm (if kw.physicalUnits then x else (a.distance / (M * lib.mtsun) / lib.c) • x))] := by
  unfold loadBase at h
  split at h
  · rename_i ap q c1 c2 e ma m0 h1 h2 h3 h4 h5 h6 h7
    unfold loadHack at h
    obtain ⟨⟨ts, hs⟩, hg, h⟩ := bind_ok h
    dsimp only at h
    obtain ⟨amp, hamp, h⟩ := bind_ok h
    obtain ⟨peak, hpeak, h⟩ := bind_ok h
    cases h
    unfold generateLAL at hg
    obtain ⟨⟨d1, d2⟩, hsp, hg⟩ := bind_ok hg
    obtain ⟨x1, y1, z1, x2, y2, z2, rfl, rfl, b1, b2, b3, b4, rfl, rfl⟩ := checkSpins_ok hsp
    dsimp only at hg
    obtain ⟨⟨M, dist⟩, hM, hg⟩ := bind_ok hg
    dsimp only at hg
    split at hg
    · cases hg
    rename_i hz
    simp only [not_or] at hz
    obtain ⟨hpi, hMT, hq⟩ := hz
    obtain ⟨strain, hch, hg⟩ := bind_ok hg
    obtain ⟨D, hMD, hdist⟩ : ∃ D, (if kw.physicalUnits then kw.M = some M ∧ kw.D = some D else M = 10 ∧ D = 1) ∧
        dist = D * 10 ^ 6 * lib.pc := by
      cases hpu : kw.physicalUnits with
      | true =>
        simp only [hpu, if_true] at hM
        cases hkM : kw.M with
        | none => rw [hkM] at hM; simp at hM
        | some M' =>
          cases hkD : kw.D with
          | none => rw [hkM, hkD] at hM; simp at hM
          | some D' =>
            rw [hkM, hkD] at hM
            cases hM
            exact ⟨D', by simp, rfl⟩
      | false =>
        simp only [hpu, Bool.false_eq_true, if_false] at hM
        cases hM
        exact ⟨1, by simp, by ring⟩
    have e1 : M * lib.msun * q / (1 + q) = q * (M * lib.msun / (1 + q)) := by ring
    have e2 : M * lib.msun * q / (1 + q) + M * lib.msun / (1 + q) = M * lib.msun := by
      field_simp
      ring
    have e3 : m0 / lib.pi / (M * lib.mtsun) * (lib.pi * (M * lib.mtsun)) = m0 := by
      rw [mul_comm lib.pi, ← mul_assoc, div_mul_cancel₀ _ hMT, div_mul_cancel₀ _ hpi]
    refine ⟨ap, q, e, m0, M, D, x1, y1, z1, x2, y2, z2, _, strain, amp, peak, h1, h2, h5, h7, h3, h4, b1, b2, b3, b4, hMD, hch, rfl,
      rfl, rfl, rfl, e1, e2, hdist, rfl, rfl, e3, rfl, rfl, hamp, ?_, ?_, ?_⟩
    all_goals
      cases hpu : kw.physicalUnits with
      | true =>
        simp only [hpu, if_true] at hg ⊢
        cases hg
        first
        | rfl
        | (simp only [List.map_map] at hpeak ⊢
           first
           | exact hpeak
           | rfl)
      | false =>
        simp only [hpu, Bool.false_eq_true, if_false] at hg ⊢
        cases hg
        first
        | rfl
        | (simp only [List.map_map] at hpeak ⊢
           first
           | exact hpeak
           | rfl)
  · cases h

/-- **C103.**  Spins with components in the plane raise. -/
theorem C103_precessing {lib : LoadLib K C} {kw : LalKw K} {chi : List K} (hc : kw.chi1 = some chi ∨ kw.chi2 = some chi)
    {x y z : K} (h : chi = [x, y, z]) (hp : 1 / 10 ^ 5 < |x| + |y|) : loadBase lib kw = .error .exception := by
  have key : ∀ c1 c2 : List K, c1 = chi ∨ c2 = chi → checkSpins c1 c2 = .error .exception := by
    intro c1 c2 hcc
    have hin : inPlane chi > 1 / 10 ^ 5 := by
      rw [h]
      simpa [inPlane] using hp
    unfold checkSpins
    rw [if_pos]
    rcases hcc with rfl | rfl
    · exact .inl hin
    · exact .inr hin
  unfold loadBase
  split
  · rename_i ap q c1 c2 e ma m0 h1 h2 h3 h4 h5 h6 h7
    have : c1 = chi ∨ c2 = chi := by
      rcases hc with hc | hc
      · left
        rw [hc] at h3
        exact (Option.some.inj h3).symm
      · right
        rw [hc] at h4
        exact (Option.some.inj h4).symm
    unfold loadHack generateLAL
    rw [key c1 c2 this]
    rfl
  · rfl

/-- **C103.**  Spins that do not have three components, or have more than 1 along the axis, raise. -/
theorem C103_bad_spins {lib : LoadLib K C} {kw : LalKw K} {chi : List K} (hc : kw.chi1 = some chi ∨ kw.chi2 = some chi)
    (h : chi.length ≠ 3 ∨ ∃ x y z, chi = [x, y, z] ∧ 1 < z ^ 2) : loadBase lib kw = .error .exception := by
  have hlen : ∀ c : List K, (alignSpin c).length = c.length := by
    intro c
    unfold alignSpin
    split
    · simp only [List.length_append, List.length_map, List.length_take, List.length_drop]
      omega
    · rfl
  have hbad : 1 < ((alignSpin chi).map (· ^ 2)).sum ∨ (alignSpin chi).length ≠ 3 := by
    rcases h with h | ⟨x, y, z, rfl, hz⟩
    · exact .inr (by rw [hlen]; exact h)
    · left
      unfold alignSpin
      split
      · simpa using hz
      · simp only [List.map_cons, List.map_nil, List.sum_cons, List.sum_nil]
        nlinarith [sq_nonneg x, sq_nonneg y]
  have key : ∀ c1 c2 : List K, c1 = chi ∨ c2 = chi → checkSpins c1 c2 = .error .exception := by
    intro c1 c2 hcc
    unfold checkSpins
    dsimp only
    split_ifs with h1 h2 h3 h4 h5
    all_goals first
      | rfl
      | (exfalso
         rcases hcc with rfl | rfl <;> rcases hbad with hb | hb
         · exact h2 hb
         · exact hb (not_not.mp h4)
         · exact h3 hb
         · exact hb (not_not.mp h5))
  unfold loadBase
  split
  · rename_i ap q c1 c2 e ma m0 h1 h2 h3 h4 h5 h6 h7
    have : c1 = chi ∨ c2 = chi := by
      rcases hc with hc | hc
      · left
        rw [hc] at h3
        exact (Option.some.inj h3).symm
      · right
        rw [hc] at h4
        exact (Option.some.inj h4).symm
    unfold loadHack generateLAL
    rw [key c1 c2 this]
    rfl
  · rfl

end lal

namespace Demo

/-- C103: a load with in-plane spin components of 1e-6 and spins of 1/2 and -1/3 along the axis succeeds; the library is asked for spins
along the axis. -/
example : (loadBase { lib with choose := fun a => if a.chi1 = [0, 0, 1 / 2] ∧ a.chi2 = [0, 0, -1 / 3] then lib.choose a else .error .valueError }
      { kw with chi1 := some [1 / 10 ^ 6, 0, 1 / 2], chi2 := some [0, 1 / 10 ^ 6, -1 / 3] }).toOption.isSome = true ∧
    (loadBase lib { kw with chi1 := some [1 / 10 ^ 6, 0, 1 / 2], chi2 := some [0, 1 / 10 ^ 6, -1 / 3] }).toOption =
      (loadBase lib kw).toOption := by decide +kernel

/-- C103: in-plane components of the second spin. -/
example : loadBase lib { kw with chi2 := some [1 / 10, -1 / 10, 0] } = .error .exception :=
  C103_precessing (.inr rfl) rfl (by norm_num [abs_of_pos, abs_of_neg])

/-- C103: a first spin of -11/10, and a second spin given as one number. -/
example : loadBase lib { kw with chi1 := some [0, 0, -11 / 10] } = .error .exception ∧
    loadBase lib { kw with chi2 := some [1 / 2] } = .error .exception :=
  ⟨C103_bad_spins (.inl rfl) (.inr ⟨0, 0, -11 / 10, rfl, by norm_num⟩), C103_bad_spins (.inr rfl) (.inl (by decide))⟩

end Demo

end GwEcc.Load
