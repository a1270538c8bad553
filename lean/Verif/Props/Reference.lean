import Verif.Lemmas.Reference
import Verif.Lemmas.RunDemo

set_option linter.unusedSectionVars false

/-!
# C106: the reference points of a call do not influence each other
-/

namespace GwEcc

open Spec Points

section
variable {K C : Type} [Field K] [LinearOrder K] [FloorRing K]

/-- A waveform has one eccentricity and one mean anomaly at each time, and one time at each frequency: whatever times or
frequencies are asked for, alone or together with others, the values returned are those. -/
theorem C106_pointwise (fuel : ℕ) (lib : Libs K C) (a : Call K C) (hseg : WholeWaveform a) :
    ∃ ecc ano time : K → K,
      (∀ v ans, run fuel lib (askTimes a v) = some (.ok ans) → Tabulates ans.ret "tref_out" ecc ano) ∧
      (∀ v ans, run fuel lib (askFrequencies a v) = some (.ok ans) →
        Tabulates ans.ret "fref_out" (fun f => ecc (time f)) (fun f => ano (time f))) := by
  by_cases hex : ∃ d r ans, run fuel lib (ask a d r) = some (.ok ans)
  · obtain ⟨d, r, ans, hrun⟩ := hex
    rcases source hrun hseg with ⟨o, hz⟩ | ⟨e, o, p, q, m, hm, -, hev⟩
    · refine ⟨fun _ => 0, fun _ => 0, fun _ => 0, ?_, ?_⟩ <;> intro v ans' h'
      · obtain ⟨ve, va, vr, ⟨k1, k2, k3⟩, -, -, -, k4, k5, k6⟩ := zero_entries ((hz .time v ans'.ret).mp ⟨ans', h', rfl⟩)
        exact ⟨ve, va, vr, k1, k2, k3, by rw [k4, k6], by rw [k5, k6]⟩
      · obtain ⟨ve, va, vr, ⟨k1, k2, k3⟩, -, -, -, k4, k5, k6⟩ := zero_entries ((hz .frequency v ans'.ret).mp ⟨ans', h', rfl⟩)
        exact ⟨ve, va, vr, k1, k2, k3, by rw [k4, k6], by rw [k5, k6]⟩
    · refine ⟨eccAt e m, anoAt e m, timeAt e m, ?_, ?_⟩ <;> intro v ans' h'
      · obtain ⟨c, h3⟩ := (hev .time v ans'.ret).mp ⟨ans', h', rfl⟩
        obtain ⟨_, _, ts, -, -, -, -, -, -, h5⟩ := evaluate_full h3
        obtain ⟨ve, va, vr, ⟨k1, k2, k3⟩, -, -, -, k4, k5, k6⟩ := return_entries h5 (by rw [List.length_map]; rfl)
        exact ⟨ve, va, vr, k1, k2, k3, by rw [k4, k6]; rfl, by rw [k5, k6]; rfl⟩
      · obtain ⟨c, h3⟩ := (hev .frequency v ans'.ret).mp ⟨ans', h', rfl⟩
        obtain ⟨fOut, -, -, -, h5⟩ := frequencies_full h3
        obtain ⟨ve, va, vr, ⟨k1, k2, k3⟩, -, -, -, k4, k5, k6⟩ := return_entries h5 (by simp)
        exact ⟨ve, va, vr, k1, k2, k3, by rw [k4, k6, List.map_map]; rfl, by rw [k5, k6, List.map_map]; rfl⟩
  · refine ⟨fun _ => 0, fun _ => 0, fun _ => 0, ?_, ?_⟩ <;> intro v ans h
    · exact absurd ⟨.time, v, ans, h⟩ hex
    · exact absurd ⟨.frequency, v, ans, h⟩ hex

/-- A measurement for times, in terms of the curves. -/
theorem times_full {e : Ext K} {m : Meas K} {v : Val K} {c : AvgCache K} {ret : Dict String (Val K)}
    (h : evaluate e (turnM m .time v) none = .ok (ret, c)) :
    ∃ ts, ts = v.atleast1d.filter (fun x => decide (x ≤ m.tmax ∧ m.tmin ≤ x)) ∧ ts ≠ [] ∧ (∀ x ∈ ts, Fine e m x) ∧
      Accepted e m ts ∧ ∃ ve va vr, Returns ret "tref_out" ve va vr ∧ ve.isScalar = v.isScalar ∧ va.isScalar = v.isScalar ∧
        vr.isScalar = v.isScalar ∧ ve.atleast1d = ts.map (eccAt e m) ∧ va.atleast1d = ts.map (anoAt e m) ∧ vr.atleast1d = ts := by
  obtain ⟨tr, _, ts, hr, h1, h2, -, h3, h4, h5⟩ := evaluate_full h
  obtain ⟨ve, va, vr, k⟩ := return_entries h5 (by rw [List.length_map]; rfl)
  have := referenceTimes_time rfl hr
  subst this
  exact ⟨ts, h1, h2, h3, h4, ve, va, vr, k⟩

/-- The converse. -/
theorem times_of {e : Ext K} {o : Obj K} {p a : List ℕ} {m : Meas K} (hm : prepare e o p a = .ok m) {v : Val K}
    (hne : v.atleast1d.filter (fun x => decide (x ≤ m.tmax ∧ m.tmin ≤ x)) ≠ [])
    (hf : ∀ x ∈ v.atleast1d.filter (fun x => decide (x ≤ m.tmax ∧ m.tmin ≤ x)), Fine e m x)
    (ha : Accepted e m (v.atleast1d.filter (fun x => decide (x ≤ m.tmax ∧ m.tmin ≤ x)))) :
    ∃ ret, evaluate e (turnM m .time v) none = .ok (ret, none) := by
  obtain ⟨ret, hret⟩ := return_ok (d := .time) (s := v.isScalar)
    (ecc := (v.atleast1d.filter (fun x => decide (x ≤ m.tmax ∧ m.tmin ≤ x))).map (eccAt e m))
    (ano := (v.atleast1d.filter (fun x => decide (x ≤ m.tmax ∧ m.tmin ≤ x))).map (anoAt e m))
    (ref := v.atleast1d.filter (fun x => decide (x ≤ m.tmax ∧ m.tmin ≤ x))) (by simp) (by simp) (filter_scalar hne)
  exact ⟨ret, evaluate_of hm rfl hne hf ha hret⟩

/-- Asking for fewer times: if a call returns, a call for some of its times returns too, as long as one of them was
answered, and it answers those of them that were. -/
theorem C106_fewer (fuel : ℕ) (lib : Libs K C) (a : Call K C) (hseg : WholeWaveform a) (v w : Val K) (ans : Answer K C)
    (hrun : run fuel lib (askTimes a v) = some (.ok ans)) (ve va vr : Val K) (hret : Returns ans.ret "tref_out" ve va vr)
    (hsub : ∀ x ∈ w.atleast1d, x ∈ v.atleast1d) (hone : ∃ x ∈ w.atleast1d, x ∈ vr.atleast1d) :
    ∃ ans' ve' va' vr', run fuel lib (askTimes a w) = some (.ok ans') ∧ Returns ans'.ret "tref_out" ve' va' vr' ∧
      ∀ keep : K → Bool, (∀ x, keep x = true ↔ x ∈ vr.atleast1d) → vr'.atleast1d = w.atleast1d.filter keep := by
  rcases source (d := .time) (r := v) hrun hseg with ⟨o, hz⟩ | ⟨e, o, p, q, m, hm, -, hev⟩
  · obtain ⟨_, _, vr0, k0, -, -, -, -, -, k6⟩ := zero_entries ((hz .time v ans.ret).mp ⟨ans, hrun, rfl⟩)
    obtain ⟨-, -, rfl⟩ := returns_unique hret k0
    obtain ⟨ret, hr⟩ := zero_ok o .time w
    obtain ⟨ans', h1, rfl⟩ := (hz .time w ret).mpr hr
    obtain ⟨ve', va', vr', k0', -, -, -, -, -, k6'⟩ := zero_entries hr
    refine ⟨ans', ve', va', vr', h1, k0', fun keep hk => ?_⟩
    rw [k6']
    refine (List.filter_eq_self.mpr fun x hx => ?_).symm
    rw [hk, k6]
    exact hsub x hx
  · obtain ⟨c, h3⟩ := (hev .time v ans.ret).mp ⟨ans, hrun, rfl⟩
    obtain ⟨ts, hts, hne, hfine, hacc, _, _, vr0, k0, -, -, -, -, -, k6⟩ := times_full h3
    obtain ⟨-, -, rfl⟩ := returns_unique hret k0
    have hin : ∀ x ∈ w.atleast1d, (x ∈ ts ↔ decide (x ≤ m.tmax ∧ m.tmin ≤ x) = true) := by
      intro x hx
      rw [hts, List.mem_filter]
      exact ⟨fun h => h.2, fun h => ⟨hsub x hx, h⟩⟩
    have hmem : ∀ x ∈ w.atleast1d.filter (fun x => decide (x ≤ m.tmax ∧ m.tmin ≤ x)), x ∈ ts := by
      intro x hx
      rw [List.mem_filter] at hx
      exact (hin x hx.1).mpr hx.2
    have hne' : w.atleast1d.filter (fun x => decide (x ≤ m.tmax ∧ m.tmin ≤ x)) ≠ [] := by
      obtain ⟨x, hx, hx'⟩ := hone
      rw [k6] at hx'
      exact List.ne_nil_of_mem (List.mem_filter.mpr ⟨hx, (hin x hx).mp hx'⟩)
    obtain ⟨ret, h4⟩ := times_of hm hne' (fun x hx => hfine x (hmem x hx)) (accepted_sub hacc hmem)
    obtain ⟨ans', h5, rfl⟩ := (hev .time w ret).mpr ⟨_, h4⟩
    obtain ⟨ts', hts', -, -, -, ve', va', vr', k0', -, -, -, -, -, k6'⟩ := times_full h4
    refine ⟨ans', ve', va', vr', h5, k0', fun keep hk => ?_⟩
    rw [k6', hts']
    refine List.filter_congr fun x hx => ?_
    rw [Bool.eq_iff_iff, hk, k6, hin x hx]

/-- Asking for more times: if two calls return, so does the call for the times of both, and it answers what they answered. -/
theorem C106_more (fuel : ℕ) (lib : Libs K C) (a : Call K C) (hseg : WholeWaveform a) (v w : Val K) (ans ans' : Answer K C)
    (h1 : run fuel lib (askTimes a v) = some (.ok ans)) (h2 : run fuel lib (askTimes a w) = some (.ok ans'))
    (ve va vr ve' va' vr' : Val K) (hret : Returns ans.ret "tref_out" ve va vr) (hret' : Returns ans'.ret "tref_out" ve' va' vr') :
    ∃ both, run fuel lib (askTimes a (.array (v.atleast1d ++ w.atleast1d))) = some (.ok both) ∧
      Returns both.ret "tref_out" (.array (ve.atleast1d ++ ve'.atleast1d)) (.array (va.atleast1d ++ va'.atleast1d))
        (.array (vr.atleast1d ++ vr'.atleast1d)) := by
  rcases source (d := .time) (r := v) h1 hseg with ⟨o, hz⟩ | ⟨e, o, p, q, m, hm, -, hev⟩
  · obtain ⟨_, _, _, k0, -, -, -, k4, k5, k6⟩ := zero_entries ((hz .time v ans.ret).mp ⟨ans, h1, rfl⟩)
    obtain ⟨rfl, rfl, rfl⟩ := returns_unique hret k0
    obtain ⟨_, _, _, k0', -, -, -, k4', k5', k6'⟩ := zero_entries ((hz .time w ans'.ret).mp ⟨ans', h2, rfl⟩)
    obtain ⟨rfl, rfl, rfl⟩ := returns_unique hret' k0'
    obtain ⟨ret, hr⟩ := zero_ok o .time (.array (v.atleast1d ++ w.atleast1d))
    obtain ⟨both, h3, rfl⟩ := (hz .time _ ret).mpr hr
    obtain ⟨xe, xa, xr, kb, s1, s2, s3, b4, b5, b6⟩ := zero_entries hr
    have kb : Returns _ "tref_out" xe xa xr := kb
    refine ⟨both, h3, ?_⟩
    rw [k4, k5, k6, k4', k5', k6']
    convert kb using 1
    · refine val_ext s1.symm ?_; rw [b4]; simp [Val.atleast1d]
    · refine val_ext s2.symm ?_; rw [b5]; simp [Val.atleast1d]
    · refine val_ext s3.symm ?_; rw [b6]
  · obtain ⟨c, h3⟩ := (hev .time v ans.ret).mp ⟨ans, h1, rfl⟩
    obtain ⟨ts, hts, hne, hfine, hacc, _, _, _, k0, -, -, -, k4, k5, k6⟩ := times_full h3
    obtain ⟨rfl, rfl, rfl⟩ := returns_unique hret k0
    obtain ⟨c', h3'⟩ := (hev .time w ans'.ret).mp ⟨ans', h2, rfl⟩
    obtain ⟨ts', hts', hne', hfine', hacc', _, _, _, k0', -, -, -, k4', k5', k6'⟩ := times_full h3'
    obtain ⟨rfl, rfl, rfl⟩ := returns_unique hret' k0'
    have hb : (Val.array (v.atleast1d ++ w.atleast1d)).atleast1d.filter (fun x => decide (x ≤ m.tmax ∧ m.tmin ≤ x)) = ts ++ ts' := by
      rw [hts, hts', ← List.filter_append]; rfl
    obtain ⟨ret, h4⟩ := times_of (v := .array (v.atleast1d ++ w.atleast1d)) hm (by rw [hb]; simp [hne])
      (by rw [hb]; intro x hx; rcases List.mem_append.mp hx with hx | hx; exacts [hfine x hx, hfine' x hx])
      (by rw [hb]; exact accepted_append hacc hacc')
    obtain ⟨both, h5, rfl⟩ := (hev .time _ ret).mpr ⟨_, h4⟩
    obtain ⟨tb, htb, -, -, -, xe, xa, xr, kb, s1, s2, s3, b4, b5, b6⟩ := times_full h4
    rw [hb] at htb
    subst htb
    refine ⟨both, h5, ?_⟩
    rw [k4, k5, k6, k4', k5', k6']
    convert kb using 1
    · refine val_ext s1.symm ?_; rw [b4]; simp [Val.atleast1d]
    · refine val_ext s2.symm ?_; rw [b5]; simp [Val.atleast1d]
    · refine val_ext s3.symm ?_; rw [b6]; rfl

/-- A frequency stands for a time: what a call returns for frequencies is what the call for their times returns. -/
theorem C106_frequency (fuel : ℕ) (lib : Libs K C) (a : Call K C) (hseg : WholeWaveform a)
    (v : Val K) (ans : Answer K C)
    (hrun : run fuel lib (askFrequencies a v) = some (.ok ans)) (ve va vf : Val K) (hret : Returns ans.ret "fref_out" ve va vf) :
    ∃ (time : K → K) (w : Val K) (ans' : Answer K C), w.isScalar = v.isScalar ∧ w.atleast1d = vf.atleast1d.map time ∧
      run fuel lib (askTimes a w) = some (.ok ans') ∧ Returns ans'.ret "tref_out" ve va w := by
  rcases source (d := .frequency) (r := v) hrun hseg with ⟨o, hz⟩ | ⟨e, o, p, q, m, hm, -, hev⟩
  · obtain ⟨_, _, _, k0, s1, s2, s3, k4, k5, k6⟩ := zero_entries ((hz .frequency v ans.ret).mp ⟨ans, hrun, rfl⟩)
    obtain ⟨rfl, rfl, rfl⟩ := returns_unique hret k0
    obtain ⟨ret, hr⟩ := zero_ok o .time v
    obtain ⟨ans', h3, rfl⟩ := (hz .time v ret).mpr hr
    obtain ⟨xe, xa, xr, kb, t1, t2, t3, b4, b5, b6⟩ := zero_entries hr
    have kb : Returns _ "tref_out" xe xa xr := kb
    refine ⟨id, v, ans', rfl, by rw [k6, List.map_id], h3, ?_⟩
    convert kb using 1
    · exact val_ext (s1.trans t1.symm) (by rw [k4, b4])
    · exact val_ext (s2.trans t2.symm) (by rw [k5, b5])
    · exact val_ext t3.symm b6.symm
  · obtain ⟨c, h3⟩ := (hev .frequency v ans.ret).mp ⟨ans, hrun, rfl⟩
    obtain ⟨fOut, hne, hfine, hacc, h5⟩ := frequencies_full h3
    obtain ⟨_, _, _, k0, s1, s2, s3, k4, k5, k6⟩ := return_entries h5 (by simp)
    obtain ⟨rfl, rfl, rfl⟩ := returns_unique hret k0
    obtain ⟨w, hw1, hw2⟩ : ∃ w : Val K, w.isScalar = v.isScalar ∧ w.atleast1d = fOut.map (timeAt e m) := by
      match v, vf, s3, k6 with
      | .scalar _, .scalar f, _, k6 => exact ⟨.scalar (timeAt e m f), rfl, by rw [← k6]; rfl⟩
      | .array _, _, _, _ => exact ⟨.array (fOut.map (timeAt e m)), rfl, rfl⟩
    have hall : w.atleast1d.filter (fun x => decide (x ≤ m.tmax ∧ m.tmin ≤ x)) = fOut.map (timeAt e m) := by
      rw [hw2]
      refine List.filter_eq_self.mpr fun x hx => ?_
      have := (hfine x hx).1
      rw [decide_eq_true_eq]
      exact ⟨this.2, this.1⟩
    obtain ⟨ret, h4⟩ := times_of (v := w) hm (by rw [hall]; simpa using hne) (by rw [hall]; exact hfine) (by rw [hall]; exact hacc)
    obtain ⟨ans', h6, rfl⟩ := (hev .time w ret).mpr ⟨_, h4⟩
    obtain ⟨tb, htb, -, -, -, xe, xa, xr, kb, t1, t2, t3, b4, b5, b6⟩ := times_full h4
    rw [hall] at htb
    subst htb
    refine ⟨timeAt e m, w, ans', hw1, by rw [hw2, k6], h6, ?_⟩
    convert kb using 1
    · exact val_ext (by rw [s1, t1, hw1]) (by rw [k4, b4])
    · exact val_ext (by rw [s2, t2, hw1]) (by rw [k5, b5])
    · exact val_ext t3.symm (by rw [hw2, b6])

end

/-! The premises are met by the demonstration call at the times 5 and 8, at the time 8 alone, and for frequencies. -/

namespace ReferenceDemo

open RunDemo

theorem whole : WholeWaveform call := by
  intro x hx
  have : (some (Opt.leaf Leaf.none) : Option (Opt ℚ)) = some x := hx
  cases this
  rfl

theorem some_answer {a : Call ℚ (ℚ × ℚ)} (h : (run 60 lib a).map (fun r => r.toOption.isSome) = some true) :
    ∃ ans, run 60 lib a = some (.ok ans) := by
  obtain ⟨r, hr, h⟩ := Option.map_eq_some_iff.mp h
  cases r with
  | error e => cases h
  | ok ans => exact ⟨ans, hr⟩

example : ∃ ans, run 60 lib (askTimes call (.array [5, 8])) = some (.ok ans) := some_answer (by decide +kernel)

example : ecc (run 60 lib (askTimes call (.scalar 8))) = some (.ok (some (.scalar (25 / 204)))) ∧
    ecc (run 60 lib (askTimes call (.array [100, 8, 5, 8]))) = some (.ok (some (.array [25 / 204, 10 / 81, 25 / 204]))) := by
  decide +kernel

example : ∃ ans, run 60 lib (askFrequencies call (.array [13 / 20, 2 / 3])) = some (.ok ans) := some_answer (by decide +kernel)

end ReferenceDemo

end GwEcc
