import Verif.Model.SxsFiles
import Verif.Props.LoadData
import Verif.Props.LoadFiles
import Verif.Props.LoadOptions
import Mathlib.Tactic.Linarith
import Mathlib.Tactic.Ring
import Mathlib.Tactic.NormNum

/-!
# C100 Waveforms loaded from SXS catalogue files
-/

set_option linter.unusedSectionVars false

namespace GwEcc.Sxs

open Load

variable {B K C : Type} [Field K] [LinearOrder K] [IsStrictOrderedRing K]

/-! ### Specification -/

/-- The mode `(ell, m)` of a table with one column per mode, ordered by `ell` and then `m`. -/
def Strain.mode (w : Strain K C) (k : LM) : Option (List C) :=
  if w.ellMin ≤ k.1 ∧ k.1 ≤ w.ellMax ∧ |k.2| ≤ k.1 then w.columns[(lmIndex w.ellMin k).toNat]? else none

/-- A table has a column for every mode between its first and last `ell`. -/
def Strain.Complete (w : Strain K C) : Prop :=
  0 ≤ w.ellMin ∧ w.ellMin ≤ w.ellMax ∧ (w.columns.length : ℤ) = (w.ellMax + 1) ^ 2 - w.ellMin ^ 2

/-- The last line with a given name in it. -/
def LastLine (lines : List (List Char)) (name : String) (line : List Char) : Prop :=
  ∃ before after, lines = before ++ line :: after ∧ name.toList <:+: line ∧ ∀ l ∈ after, ¬ name.toList <:+: l

/-! ### Lemmas -/

theorem foldlM_set {f : LM → Py (List C)} : ∀ (l : List LM) (acc r : Dict LM (List C)),
    l.foldlM (fun (acc : Dict LM (List C)) k => f k >>= fun x => pure (acc.set k x)) acc = (.ok r : Py _) →
    ∀ k, (k ∈ l → ∃ x, f k = .ok x ∧ r.get? k = some x) ∧ (k ∉ l → r.get? k = acc.get? k)
  | [], acc, r, h, k => by
    have h : acc = r := Except.ok.inj h
    subst h
    exact ⟨by simp, fun _ => rfl⟩
  | a :: l, acc, r, h, k => by
    rw [List.foldlM_cons] at h
    obtain ⟨acc', h1, h2⟩ := bind_ok h
    obtain ⟨x, hx, h3⟩ := bind_ok h1
    have h3 : acc.set a x = acc' := Except.ok.inj h3
    obtain ⟨g1, g2⟩ := foldlM_set l acc' r h2 k
    refine ⟨?_, ?_⟩
    · intro hk
      by_cases hkl : k ∈ l
      · exact g1 hkl
      · have hka : k = a := by
          rcases List.mem_cons.mp hk with h | h
          · exact h
          · exact absurd h hkl
        refine ⟨x, by rw [hka]; exact hx, ?_⟩
        rw [g2 hkl, ← h3, Dict.get?_set, if_pos hka]
    · intro hk
      rw [g2 (fun h => hk (List.mem_cons_of_mem _ h)), ← h3, Dict.get?_set,
        if_neg (fun h => hk (by rw [h]; exact List.mem_cons_self))]

theorem index_mode {w : Strain K C} {k : LM} {i : ℕ} {h : List C} (hi : w.index k = .ok i) (hh : pyGet w.columns i = .ok h) :
    w.mode k = some h := by
  unfold Strain.index at hi
  by_cases hc : k.1 < w.ellMin ∨ w.ellMax < k.1 ∨ k.1 < |k.2|
  · rw [if_pos hc] at hi; exact absurd hi (by simp)
  · rw [if_neg hc] at hi
    push Not at hc
    unfold Strain.mode
    rw [if_pos hc, Except.ok.inj hi]
    exact pyGet_getElem? hh

theorem grid_ok [FloorRing K] {time t : List K} {d : K} (hd : 0 < d) (h : grid time d = .ok t) :
    ∃ a b, time[0]? = some a ∧ time.getLast? = some b ∧ ∀ (k : ℕ) (x : K), t[k]? = some x ↔ x = a + k * d ∧ x < b := by
  unfold grid at h
  obtain ⟨a, ha, h⟩ := bind_ok h
  obtain ⟨b, hb, h⟩ := bind_ok h
  have hlast : time.getLast? = some b := by
    split at hb
    · rename_i b' hb'
      cases hb
      exact hb'
    · cases hb
  exact ⟨a, b, pyGet_getElem? ha, hlast, arange_mem hd h⟩

theorem newModes_ok [FloorRing K] {lib : SxsLib B K C} {d : Dict String B} {kw : SxsFileKw K} {t : List K}
    {modes : Dict LM (List C)} (h : newModes lib d kw = .ok (t, modes)) :
    ∃ w, readModes lib d kw = .ok w ∧ grid w.t kw.deltaT = .ok t ∧
      ∀ k, (k ∈ kw.modeArray → ∃ col x, w.mode k = some col ∧ lib.interp w.t col t = .ok x ∧ modes.get? k = some x) ∧
        (k ∉ kw.modeArray → modes.get? k = none) := by
  unfold newModes at h
  obtain ⟨w, hw, h⟩ := bind_ok h
  obtain ⟨t', ht, h⟩ := bind_ok h
  obtain ⟨m, hm, h⟩ := bind_ok h
  have h := Except.ok.inj h
  cases h
  refine ⟨w, hw, ht, ?_⟩
  intro k
  have hfold := foldlM_set (f := fun k => do
    let i ← w.index k
    let h ← pyGet w.columns i
    lib.interp w.t h t) kw.modeArray [] modes (by rw [← hm]; simp only [bind_assoc]) k
  refine ⟨?_, ?_⟩
  · intro hk
    obtain ⟨x, hx, hget⟩ := hfold.1 hk
    obtain ⟨i, hi, hx⟩ := bind_ok hx
    obtain ⟨col, hcol, hx⟩ := bind_ok hx
    exact ⟨col, x, index_mode hi hcol, hx, hget⟩
  · intro hk
    rw [hfold.2 hk]
    rfl

theorem oldModes_ok [FloorRing K] {lib : SxsLib B K C} {d : Dict String B} {kw : SxsFileKw K} {t : List K}
    {modes : Dict LM (List C)} (h : oldModes lib d kw = .ok (t, modes)) :
    ∃ b first rest time h0, d.get? "rhOverM_Asymptotic_GeometricUnits_CoM.h5" = some b ∧ kw.modeArray = first :: rest ∧
      lib.oldMode b kw.extrapOrder first = .ok (time, h0) ∧ grid time kw.deltaT = .ok t ∧
      ∀ k, (k ∈ kw.modeArray → ∃ time' col x, lib.oldMode b kw.extrapOrder k = .ok (time', col) ∧
          lib.interp time col t = .ok x ∧ modes.get? k = some x) ∧
        (k ∉ kw.modeArray → modes.get? k = none) := by
  unfold oldModes at h
  obtain ⟨b, hb, h⟩ := bind_ok h
  have hb : d.get? "rhOverM_Asymptotic_GeometricUnits_CoM.h5" = some b := by
    unfold open? at hb
    split at hb
    · rename_i v hv; rw [hv, Except.ok.inj hb]
    · exact absurd hb (by simp)
  cases hma : kw.modeArray with
  | nil => rw [hma] at h; exact absurd h (by simp)
  | cons first rest =>
    rw [hma] at h
    dsimp only at h
    obtain ⟨⟨time, h0⟩, hfirst, h⟩ := bind_ok h
    obtain ⟨t', ht, h⟩ := bind_ok h
    obtain ⟨m, hm, h⟩ := bind_ok h
    have h := Except.ok.inj h
    cases h
    refine ⟨b, first, rest, time, h0, hb, rfl, hfirst, ht, ?_⟩
    intro k
    have hfold := foldlM_set (f := fun k => do
      let p ← lib.oldMode b kw.extrapOrder k
      lib.interp time p.2 t) (first :: rest) [] modes (by rw [← hm]; simp only [bind_assoc]) k
    refine ⟨?_, ?_⟩
    · intro hk
      obtain ⟨x, hx, hget⟩ := hfold.1 hk
      obtain ⟨⟨time', col⟩, hcol, hx⟩ := bind_ok hx
      exact ⟨time', col, x, hcol, hx, hget⟩
    · intro hk
      rw [hfold.2 hk]
      rfl

theorem get?_map_drop (j : ℕ) (modes : Dict LM (List C)) (k : LM) :
    Dict.get? (modes.map fun m => (m.1, m.2.drop j) : Dict LM (List C)) k = (modes.get? k).map fun x => x.drop j := by
  induction modes with
  | nil => rfl
  | cons p l ih =>
    rw [List.map_cons, Dict.get?_cons, Dict.get?_cons, ih]
    by_cases h : k = p.1
    · rw [if_pos h, if_pos h]; rfl
    · rw [if_neg h, if_neg h]

/-- What `makeSxs` does to times and modes. -/
theorem makeSxs_ok [SMul K C] {fuel : ℕ} {lib : LoadLib K C} {t : List K} {modes : Dict LM (List C)} {duration : Option (Py K)}
    {metadata : Py (Meta K)} {kw : SxsKw K} {wave : Load.Wave K C} {params : Option (K × List K × List K × K)}
    (h : makeSxs fuel lib t modes duration metadata kw = some (.ok (wave, params))) :
    ∃ (j : ℕ) (amp : List K) (peak x : K), wave.t = (t.drop j).map (· - peak) ∧
      wave.hlm = modes.map (fun m => (m.1, m.2.drop j)) ∧ lib.amplitude wave.hlm = .ok amp ∧
      peakTime (t.drop j) amp = .ok (peak, x) ∧
      ((∀ d, duration = some d → ∃ d', d = .ok d' ∧ argmin (t.map fun x => |x - d'|) = .ok j) ∧
        (duration = none → ∃ h22 p0, modes.get? (2, 2) = some h22 ∧ (lib.phase h22)[0]? = some p0 ∧
            argmin ((lib.phase h22).map fun p => |p - (p0 + kw.numOrbits * 4 * lib.pi)|) = .ok j)) ∧
      (kw.includeZeroEcc = false → wave.zeroecc = none) ∧
      (kw.includeZeroEcc = true → ∃ m1 m2 c1 c2 tr p z, metadata = .ok (m1, m2, c1, c2, tr) ∧
        paramsFromMetadata m1 m2 c1 c2 tr = .ok p ∧ wave.zeroecc = some z ∧
        zeroeccForNr fuel lib wave.t wave.hlm ⟨kw.approximant, p.1, p.2.1, p.2.2.1, some 0⟩ = some (.ok z)) ∧
      (kw.includeParams = false → params = none) ∧
      (kw.includeParams = true → ∃ m1 m2 c1 c2 tr p, metadata = .ok (m1, m2, c1, c2, tr) ∧
        paramsFromMetadata m1 m2 c1 c2 tr = .ok p ∧ params = some p) := by
  unfold makeSxs at h
  dsimp only at h
  split at h
  · exact absurd h (by simp)
  · rename_i t' modes' params' hprep
    obtain ⟨⟨tc, mc⟩, hcut, hprep⟩ := bind_ok hprep
    obtain ⟨amp, hamp, hprep⟩ := bind_ok hprep
    obtain ⟨⟨peak, x⟩, hpeak, hprep⟩ := bind_ok hprep
    have hj : ∃ j : ℕ, tc = t.drop j ∧ mc = modes.map (fun m => (m.1, m.2.drop j)) ∧
      ((∀ d, duration = some d → ∃ d', d = .ok d' ∧ argmin (t.map fun x => |x - d'|) = .ok j) ∧
        (duration = none → ∃ h22 p0, modes.get? (2, 2) = some h22 ∧ (lib.phase h22)[0]? = some p0 ∧
            argmin ((lib.phase h22).map fun p => |p - (p0 + kw.numOrbits * 4 * lib.pi)|) = .ok j)) := by
      cases duration with
      | some d =>
        obtain ⟨d', hd', hcut⟩ := bind_ok hcut
        unfold removeJunkHorizons at hcut
        obtain ⟨j, hj, hcut⟩ := bind_ok hcut
        have hcut := Except.ok.inj hcut
        unfold cutModes at hcut
        cases hcut
        exact ⟨j, rfl, rfl, fun d1 h1 => ⟨d', by rw [← Option.some.inj h1]; exact hd', hj⟩, fun h => by cases h⟩
      | none =>
        dsimp only at hcut
        unfold removeJunk at hcut
        obtain ⟨h22, h22', hcut⟩ := bind_ok hcut
        obtain ⟨p0, hp0, hcut⟩ := bind_ok hcut
        obtain ⟨j, hj, hcut⟩ := bind_ok hcut
        have hcut := Except.ok.inj hcut
        unfold cutModes at hcut
        cases hcut
        refine ⟨j, rfl, rfl, fun d h => absurd h (by simp), fun _ => ⟨h22, p0, ?_, pyGet_getElem? hp0, hj⟩⟩
        unfold Dict.getItem at h22'
        split at h22'
        · rename_i v hv; rw [hv, Except.ok.inj h22']
        · exact absurd h22' (by simp)
    obtain ⟨j, hj1, hj2, hj3⟩ := hj
    subst hj1 hj2
    have hres : t' = (t.drop j).map (· - peak) ∧ modes' = modes.map (fun m => (m.1, m.2.drop j)) ∧
        (kw.includeParams = true ∨ kw.includeZeroEcc = true → ∃ m1 m2 c1 c2 tr p, metadata = .ok (m1, m2, c1, c2, tr) ∧
        paramsFromMetadata m1 m2 c1 c2 tr = .ok p ∧ params' = some p) := by
      by_cases hc : (kw.includeZeroEcc || kw.includeParams || !kw.keepMemory) = true
      · dsimp only at hprep
        rw [if_pos hc] at hprep
        obtain ⟨⟨m1, m2, c1, c2, tr⟩, hmeta, hprep⟩ := bind_ok hprep
        obtain ⟨p, hp, hprep⟩ := bind_ok hprep
        have hprep := Except.ok.inj hprep
        cases hprep
        exact ⟨rfl, rfl, fun _ => ⟨m1, m2, c1, c2, tr, p, hmeta, hp, rfl⟩⟩
      · dsimp only at hprep
        rw [if_neg hc] at hprep
        have hprep := Except.ok.inj hprep
        cases hprep
        refine ⟨rfl, rfl, ?_⟩
        rintro (hi | hi) <;>
        · rw [hi] at hc
          simp at hc
    obtain ⟨rfl, rfl, hparams⟩ := hres
    have hout : wave.t = (t.drop j).map (· - peak) ∧ wave.hlm = modes.map (fun m => (m.1, m.2.drop j)) ∧
        params = (if kw.includeParams then params' else none) ∧ (kw.includeZeroEcc = false → wave.zeroecc = none) ∧
        (kw.includeZeroEcc = true → ∃ p z, params' = some p ∧ wave.zeroecc = some z ∧
          zeroeccForNr fuel lib wave.t wave.hlm ⟨kw.approximant, p.1, p.2.1, p.2.2.1, some 0⟩ = some (.ok z)) := by
      by_cases hz : kw.includeZeroEcc = true
      · rw [if_pos hz] at h
        cases params' with
        | none => exact absurd h (by simp)
        | some p =>
          dsimp only at h
          obtain ⟨r, hr, h⟩ := Option.map_eq_some_iff.mp h
          obtain ⟨z, rfl, h⟩ := bind_ok h
          have h := Except.ok.inj h
          cases h
          exact ⟨rfl, rfl, rfl, fun h => absurd (h.symm.trans hz) (by simp), fun _ => ⟨p, z, rfl, rfl, hr⟩⟩
      · rw [if_neg hz] at h
        have h := Except.ok.inj (Option.some.inj h)
        cases h
        exact ⟨rfl, rfl, rfl, fun _ => rfl, fun h => absurd h hz⟩
    obtain ⟨h1, h2, h3, h4, h5⟩ := hout
    refine ⟨j, amp, peak, x, h1, h2, by rw [h2]; exact hamp, hpeak, hj3, h4, ?_, ?_, ?_⟩
    · intro hi
      obtain ⟨m1, m2, c1, c2, tr, p, g1, g2, g3⟩ := hparams (.inr hi)
      obtain ⟨p', z, k1, k2, k3⟩ := h5 hi
      cases g3.symm.trans k1
      exact ⟨m1, m2, c1, c2, tr, p, z, g1, g2, k2, k3⟩
    · intro hi; rw [h3, hi]; rfl
    · intro hi
      obtain ⟨m1, m2, c1, c2, tr, p, g1, g2, g3⟩ := hparams (.inl hi)
      exact ⟨m1, m2, c1, c2, tr, p, g1, g2, by rw [h3, hi]; exact g3⟩

/-! ### Theorems -/

theorem loadSxs_ok [FloorRing K] [SMul K C] {fuel : ℕ} {lib : SxsLib B K C} {newFormat : Bool}
    {dir : Option (Option (Dict String B))} {kw : SxsFileKw K} {wave : Load.Wave K C} {params : Option (K × List K × List K × K)}
    (h : loadSxs fuel lib newFormat dir kw = some (.ok (wave, params))) :
    ∃ d t modes horizons, dir = some (some d) ∧
      checkSxsDir newFormat kw.extrapOrder (kw.includeZeroEcc || kw.includeParams || !kw.keepMemory) (some (some d.keys)) =
        .ok horizons ∧
      (if newFormat then newModes lib d kw else oldModes lib d kw) = .ok (t, modes) ∧
      makeSxs fuel lib.toLoadLib t modes (if horizons then some (do
          let b ← open? d "Horizons.h5"
          let (time, phase) ← lib.horizons b
          horizonDuration lib.pi time phase kw.numOrbits) else none)
        (if d.has "metadata.txt" then (do metaTxt lib (← open? d "metadata.txt"))
        else (do lib.json (← open? d "metadata.json"))) kw.toSxsKw = some (.ok (wave, params)) := by
  unfold loadSxs at h
  dsimp only at h
  rcases dir with _ | _ | d
  · rw [Option.map_none, (C71_no_directory _ _ _).1] at h
    exact absurd h (by simp)
  · rw [Option.map_some, Option.map_none, (C71_no_directory _ _ _).2] at h
    exact absurd h (by simp)
  · rw [Option.map_some, Option.map_some] at h
    cases hc : checkSxsDir newFormat kw.extrapOrder (kw.includeZeroEcc || kw.includeParams || !kw.keepMemory)
        (some (some d.keys)) with
    | error e => rw [hc] at h; exact absurd h (by simp)
    | ok horizons =>
      rw [hc] at h
      dsimp only at h
      cases hm : (if newFormat then newModes lib d kw else oldModes lib d kw) with
      | error e => rw [hm] at h; exact absurd h (by simp)
      | ok r =>
        obtain ⟨t, modes⟩ := r
        rw [hm] at h
        exact ⟨d, t, modes, horizons, rfl, hc, hm, h⟩

theorem open_ok {d : Dict String B} {name : String} {b : B} (h : open? d name = .ok b) : d.get? name = some b := by
  unfold open? at h
  split at h
  · rename_i v hv; rw [hv, Except.ok.inj h]
  · exact absurd h (by simp)

/-- How many samples are removed at the start: with horizon data up to the sample nearest to the time the given number of orbits
takes there, otherwise up to the sample at which the phase of the (2, 2) mode is nearest to that many orbits. -/
def JunkRemoved (lib : SxsLib B K C) (d : Dict String B) (numOrbits : K) (t : List K) (modes : Dict LM (List C)) (j : ℕ) : Prop :=
  (∀ b, d.get? "Horizons.h5" = some b → ∃ time phase duration x, lib.horizons b = .ok (time, phase) ∧
    horizonDuration lib.pi time phase numOrbits = .ok duration ∧ t[j]? = some x ∧ ∀ y ∈ t, |x - duration| ≤ |y - duration|) ∧
  (d.get? "Horizons.h5" = none → ∃ h22 p0 p, modes.get? (2, 2) = some h22 ∧ (lib.phase h22)[0]? = some p0 ∧
    (lib.phase h22)[j]? = some p ∧ ∀ q ∈ lib.phase h22, |p - (p0 + numOrbits * (4 * lib.pi))| ≤ |q - (p0 + numOrbits * (4 * lib.pi))|)

/-- What is returned for modes `modes` on the times `t`: both from one sample on, the times counted from the time of the
largest amplitude. -/
def Returned (lib : SxsLib B K C) (d : Dict String B) (kw : SxsFileKw K) (t : List K) (modes : Dict LM (List C)) (wave : Load.Wave K C)
    (params : Option (K × List K × List K × K)) : Prop :=
  ∃ (j : ℕ) (amp : List K) (peak x : K), JunkRemoved lib d kw.numOrbits t modes j ∧ wave.t = (t.drop j).map (· - peak) ∧
    (∀ k, wave.hlm.get? k = (modes.get? k).map fun h => h.drop j) ∧
    lib.amplitude wave.hlm = .ok amp ∧ peakTime (t.drop j) amp = .ok (peak, x) ∧
    (wave.zeroecc.isSome = true ↔ kw.includeZeroEcc = true) ∧ (params.isSome = true ↔ kw.includeParams = true)

theorem returned_ok [FloorRing K] [SMul K C] {fuel : ℕ} {lib : SxsLib B K C} {newFormat : Bool}
    {dir : Option (Option (Dict String B))} {kw : SxsFileKw K} {wave : Load.Wave K C} {params : Option (K × List K × List K × K)}
    (h : loadSxs fuel lib newFormat dir kw = some (.ok (wave, params))) :
    ∃ d t modes, dir = some (some d) ∧ (if newFormat then newModes lib d kw else oldModes lib d kw) = .ok (t, modes) ∧
      Returned lib d kw t modes wave params := by
  obtain ⟨d, t, modes, horizons, hdir, hcheck, hmodes, hmake⟩ := loadSxs_ok h
  obtain ⟨j, amp, peak, x, h1, h2, h3, h4, ⟨h5, h5'⟩, h6, h7, h8, h9⟩ := makeSxs_ok hmake
  refine ⟨d, t, modes, hdir, hmodes, j, amp, peak, x, ⟨?_, ?_⟩, h1, ?_, h3, h4, ?_, ?_⟩
  · intro b hb
    have hh : horizons = true := by
      obtain ⟨present, hp, hh, _⟩ := C71_required.mp hcheck
      rw [← Option.some.inj (Option.some.inj hp)] at hh
      rw [hh, ← Dict.has_iff, Dict.has_iff_get?]
      exact ⟨b, hb⟩
    rw [if_pos hh] at h5
    obtain ⟨dur, hdur, hj⟩ := h5 _ rfl
    obtain ⟨b', hb', hdur⟩ := bind_ok hdur
    obtain ⟨⟨time, phase⟩, htp, hdur⟩ := bind_ok hdur
    have hbb : b' = b := Option.some.inj ((open_ok hb').symm.trans hb)
    subst hbb
    obtain ⟨hlt, hmin, _⟩ := argmin_spec hj
    rw [List.length_map] at hlt
    refine ⟨time, phase, dur, t[j], htp, hdur, List.getElem?_eq_getElem hlt, ?_⟩
    intro y hy
    obtain ⟨i, hi, rfl⟩ := List.getElem_of_mem hy
    have := hmin i (by rw [List.length_map]; exact hi)
    simpa using this
  · intro hb
    have hh : ¬ horizons = true := by
      obtain ⟨present, hp, hh, _⟩ := C71_required.mp hcheck
      rw [← Option.some.inj (Option.some.inj hp)] at hh
      rw [hh, ← Dict.has_iff, Dict.has_iff_get?]
      rintro ⟨v, hv⟩
      rw [hb] at hv
      cases hv
    rw [if_neg hh] at h5'
    obtain ⟨h22, p0, g1, g2, g3⟩ := h5' rfl
    obtain ⟨hlt, hmin, _⟩ := argmin_spec g3
    rw [List.length_map] at hlt
    refine ⟨h22, p0, (lib.phase h22)[j], g1, g2, List.getElem?_eq_getElem hlt, ?_⟩
    intro y hy
    obtain ⟨i, hi, rfl⟩ := List.getElem_of_mem hy
    have := hmin i (by rw [List.length_map]; exact hi)
    simpa [mul_assoc] using this
  · intro k
    rw [h2]
    exact get?_map_drop j modes k
  · constructor
    · intro hs
      by_contra hc
      rw [h6 (by simpa using hc)] at hs
      cases hs
    · exact fun hi => by obtain ⟨_, _, _, _, _, _, z, _, _, hz, _⟩ := h7 hi; rw [hz]; rfl
  · constructor
    · intro hs
      by_contra hc
      rw [h8 (by simpa using hc)] at hs
      cases hs
    · intro hc
      obtain ⟨m1, m2, c1, c2, tr, p, _, _, hp⟩ := h9 hc
      rw [hp]; rfl

/-- **C100, new format.**  A waveform that is loaded has exactly the modes asked for: each is the mode of that `ell` and `m` read from
the strain files (without its memory contribution, see `C100_memory`), interpolated to times at the step asked for that start
with the file's and stay inside them; the start is removed as junk and the times count from the largest amplitude
(`Returned`). -/
theorem C100_new [FloorRing K] [SMul K C] {fuel : ℕ} {lib : SxsLib B K C} {dir : Option (Option (Dict String B))}
    {kw : SxsFileKw K} {wave : Load.Wave K C} {params : Option (K × List K × List K × K)} (hd : 0 < kw.deltaT)
    (h : loadSxs fuel lib true dir kw = some (.ok (wave, params))) :
    ∃ d w t modes a b, dir = some (some d) ∧ readModes lib d kw = .ok w ∧ w.t[0]? = some a ∧ w.t.getLast? = some b ∧
      (∀ (k : ℕ) (x : K), t[k]? = some x ↔ x = a + k * kw.deltaT ∧ x < b) ∧
      (∀ k ∈ kw.modeArray, ∃ col x, w.mode k = some col ∧ lib.interp w.t col t = .ok x ∧ modes.get? k = some x) ∧
      (∀ k ∉ kw.modeArray, modes.get? k = none) ∧ Returned lib d kw t modes wave params := by
  obtain ⟨d, t, modes, hdir, hmodes, hret⟩ := returned_ok h
  rw [if_pos rfl] at hmodes
  obtain ⟨w, hw, hg, hm⟩ := newModes_ok hmodes
  obtain ⟨a, b, ha, hb, ht⟩ := grid_ok hd hg
  exact ⟨d, w, t, modes, a, b, hdir, hw, ha, hb, ht, fun k hk => (hm k).1 hk, fun k hk => (hm k).2 hk, hret⟩

/-- **C100, old format.**  The same, the modes being those of the extrapolation order asked for; the times of the first mode asked for
are used for all modes. -/
theorem C100_old [FloorRing K] [SMul K C] {fuel : ℕ} {lib : SxsLib B K C} {dir : Option (Option (Dict String B))}
    {kw : SxsFileKw K} {wave : Load.Wave K C} {params : Option (K × List K × List K × K)} (hd : 0 < kw.deltaT)
    (h : loadSxs fuel lib false dir kw = some (.ok (wave, params))) :
    ∃ d f first rest time h0 t modes a b, dir = some (some d) ∧ d.get? "rhOverM_Asymptotic_GeometricUnits_CoM.h5" = some f ∧
      kw.modeArray = first :: rest ∧ lib.oldMode f kw.extrapOrder first = .ok (time, h0) ∧
      time[0]? = some a ∧ time.getLast? = some b ∧ (∀ (k : ℕ) (x : K), t[k]? = some x ↔ x = a + k * kw.deltaT ∧ x < b) ∧
      (∀ k ∈ kw.modeArray, ∃ time' col x, lib.oldMode f kw.extrapOrder k = .ok (time', col) ∧ lib.interp time col t = .ok x ∧
        modes.get? k = some x) ∧
      (∀ k ∉ kw.modeArray, modes.get? k = none) ∧ Returned lib d kw t modes wave params := by
  obtain ⟨d, t, modes, hdir, hmodes, hret⟩ := returned_ok h
  rw [if_neg (by simp)] at hmodes
  obtain ⟨f, first, rest, time, h0, hf, hma, hfirst, hg, hm⟩ := oldModes_ok hmodes
  obtain ⟨a, b, ha, hb, ht⟩ := grid_ok hd hg
  exact ⟨d, f, first, rest, time, h0, t, modes, a, b, hdir, hf, hma, hfirst, ha, hb, ht, fun k hk => (hm k).1 hk,
    fun k hk => (hm k).2 hk, hret⟩

theorem lmIndex_nonneg {e : ℤ} {k : LM} (he : 0 ≤ e) (h1 : e ≤ k.1) (h2 : |k.2| ≤ k.1) : 0 ≤ lmIndex e k := by
  unfold lmIndex
  have h3 := (abs_le.mp h2).1
  nlinarith

/-- **C100, memory.**  If the memory is to be removed and the modes can be read, then every mode of the strain has exactly its own
memory contribution removed: that of the same `ell` and `m`, computed from the relaxation time in `metadata.json` on.  (The
memory table starts at `ell` 0, 1 or 2 and ends where the strain ends; a strain that does not start at `ell = 2` is refused.) -/
theorem C100_memory {lib : SxsLib B K C} {d : Dict String B} {kw : SxsFileKw K} {w : Strain K C} (hk : kw.keepMemory = false)
    (hstrain : ∀ a b s, lib.strain a b = .ok s → s.Complete)
    (hmem : ∀ s t m, lib.memory s t = .ok m → m.Complete ∧ m.ellMin ≤ 2 ∧ m.ellMax = s.ellMax)
    (h : readModes lib d kw = .ok w) :
    ∃ h5 json s p mem, d.get? ("Strain_N" ++ kw.extrapOrder ++ ".h5") = some h5 ∧
      d.get? ("Strain_N" ++ kw.extrapOrder ++ ".json") = some json ∧ lib.strain h5 json = .ok s ∧
      paramsFrom lib d "metadata.json" = .ok p ∧ lib.memory s p.2.2.2 = .ok mem ∧ s.ellMin = 2 ∧ w.t = s.t ∧
      ∀ k col, w.mode k = some col ↔ ∃ a b, s.mode k = some a ∧ mem.mode k = some b ∧ col = List.zipWith lib.sub a b := by
  unfold readModes at h
  obtain ⟨h5, hh5, h⟩ := bind_ok h
  obtain ⟨json, hjson, h⟩ := bind_ok h
  obtain ⟨s, hs, h⟩ := bind_ok h
  rw [if_neg (by simp [hk])] at h
  obtain ⟨p, hp, h⟩ := bind_ok h
  obtain ⟨mem, hm, h⟩ := bind_ok h
  obtain ⟨cols, hcols, h⟩ := bind_ok h
  have h := Except.ok.inj h
  subst h
  obtain ⟨s1, s2, s3⟩ := hstrain _ _ _ hs
  obtain ⟨⟨m1, m2, m3⟩, m4, m5⟩ := hmem _ _ _ hm
  have hidx : lmIndex mem.ellMin (2, -2) = 4 - mem.ellMin ^ 2 := by unfold lmIndex; ring
  have hpos : 0 ≤ 4 - mem.ellMin ^ 2 := by nlinarith
  have hbound : pyBound mem.columns.length (4 - mem.ellMin ^ 2) = min mem.columns.length (4 - mem.ellMin ^ 2).toNat := by
    unfold pyBound
    rw [if_neg (by omega)]
    omega
  unfold subColumns at hcols
  unfold pySliceFrom at hcols
  rw [hidx, hbound] at hcols
  by_cases hlen : s.columns.length = (mem.columns.drop (min mem.columns.length (4 - mem.ellMin ^ 2).toNat)).length
  swap
  · rw [if_neg hlen] at hcols; exact absurd hcols (by simp)
  rw [if_pos hlen] at hcols
  have hcols := Except.ok.inj hcols
  rw [List.length_drop] at hlen
  have he2 : s.ellMin = 2 := by
    rw [m5] at m3
    have hL : ((s.columns.length : ℤ)) = max 0 ((mem.columns.length : ℤ) - (4 - mem.ellMin ^ 2)) := by omega
    rw [s3, m3] at hL
    have hsimp : (s.ellMax + 1) ^ 2 - mem.ellMin ^ 2 - (4 - mem.ellMin ^ 2) = (s.ellMax + 1) ^ 2 - 4 := by ring
    rw [hsimp] at hL
    rcases le_total 0 ((s.ellMax + 1) ^ 2 - 4) with h0 | h0
    · rw [max_eq_right h0] at hL
      have : s.ellMin ^ 2 = 4 := by linarith
      nlinarith
    · rw [max_eq_left h0] at hL
      nlinarith
  refine ⟨h5, json, s, p, mem, open_ok hh5, open_ok hjson, hs, hp, hm, he2, rfl, ?_⟩
  intro k col
  have hmin : min mem.columns.length (4 - mem.ellMin ^ 2).toNat = (4 - mem.ellMin ^ 2).toNat := by
    apply min_eq_right
    have : (4 - mem.ellMin ^ 2) ≤ (mem.columns.length : ℤ) := by
      rw [m3, m5]
      have : 2 ≤ s.ellMax := he2 ▸ s2
      nlinarith
    omega
  rw [hmin] at hcols
  unfold Strain.mode
  dsimp only
  rw [he2, m5]
  by_cases hc : 2 ≤ k.1 ∧ k.1 ≤ s.ellMax ∧ |k.2| ≤ k.1
  · have hc' : mem.ellMin ≤ k.1 ∧ k.1 ≤ s.ellMax ∧ |k.2| ≤ k.1 := ⟨le_trans m4 hc.1, hc.2⟩
    simp only [if_pos hc, if_pos hc']
    have hn2 := lmIndex_nonneg (e := 2) (by norm_num) hc.1 hc.2.2
    have hshift : (lmIndex mem.ellMin k).toNat = (4 - mem.ellMin ^ 2).toNat + (lmIndex 2 k).toNat := by
      have : lmIndex mem.ellMin k = (4 - mem.ellMin ^ 2) + lmIndex 2 k := by unfold lmIndex; ring
      omega
    rw [← hcols, List.getElem?_zipWith, List.getElem?_drop, ← hshift]
    constructor
    · intro h
      cases ha : s.columns[(lmIndex 2 k).toNat]? with
      | none => rw [ha] at h; simp at h
      | some a =>
        cases hb : mem.columns[(lmIndex mem.ellMin k).toNat]? with
        | none => rw [ha, hb] at h; simp at h
        | some b =>
          rw [ha, hb] at h
          exact ⟨a, b, rfl, rfl, (Option.some.inj h).symm⟩
    · rintro ⟨a, b, ha, hb, rfl⟩
      rw [ha, hb]
  · simp only [if_neg hc]
    constructor
    · intro h; cases h
    · rintro ⟨a, b, h, _⟩; cases h

/-- A variable that each line with a name in it sets holds what the last such line says. -/
theorem foldlM_last {V α : Type} {step : V → List Char → Py V} {get : V → Option α} {name : String} {value : List Char → Py α}
    (hstep : ∀ v line v', step v line = .ok v' →
      (name.toList <:+: line → ∃ x, value line = .ok x ∧ get v' = some x) ∧ (¬ name.toList <:+: line → get v' = get v)) :
    ∀ (lines : List (List Char)) (v v' : V) (x : α), lines.foldlM step v = .ok v' → get v' = some x →
      (∃ line, LastLine lines name line ∧ value line = .ok x) ∨ ((∀ l ∈ lines, ¬ name.toList <:+: l) ∧ get v = some x)
  | [], v, v', x, h, hx => by
    have h : v = v' := Except.ok.inj h
    subst h
    exact Or.inr ⟨by simp, hx⟩
  | a :: lines, v, v', x, h, hx => by
    rw [List.foldlM_cons] at h
    obtain ⟨w, h1, h2⟩ := bind_ok h
    rcases foldlM_last hstep lines w v' x h2 hx with ⟨line, ⟨before, after, e, h3, h4⟩, hv⟩ | ⟨hno, hw⟩
    · exact Or.inl ⟨line, ⟨a :: before, after, by rw [e]; rfl, h3, h4⟩, hv⟩
    · by_cases ha : name.toList <:+: a
      · obtain ⟨y, hy, hg⟩ := (hstep v a w h1).1 ha
        rw [hg] at hw
        cases hw
        exact Or.inl ⟨a, ⟨[], lines, rfl, ha, hno⟩, hy⟩
      · refine Or.inr ⟨?_, ?_⟩
        · intro l hl
          rcases List.mem_cons.mp hl with rfl | hl
          · exact ha
          · exact hno l hl
        · rw [← (hstep v a w h1).2 ha]; exact hw

theorem has_iff_infix {s : String} {line : List Char} : (findIdx s.toList line).isSome = true ↔ s.toList <:+: line := by
  rw [Option.isSome_iff_ne_none, ne_eq, findIdx_none, not_not]

/-- The number after the last `=` of a line. -/
def number (float : List Char → Py K) (line : List Char) : Py K := float (Post.strip (afterEq line))

/-- The numbers after the last `=` of a line, separated by commas. -/
def numbers (float : List Char → Py K) (line : List Char) : Py (List K) :=
  ((afterEq line).splitOn ',').mapM fun s => float (Post.strip s)

theorem cond_set {V α : Type} {c : Bool} {x : Py α} {set : V → α → V} {v v' : V}
    (h : (if c = true then (do let y ← x; pure (set v y)) else pure v : Py V) = .ok v') :
    (c = true → ∃ y, x = .ok y ∧ v' = set v y) ∧ (c = false → v' = v) := by
  cases c with
  | true =>
    rw [if_pos rfl] at h
    obtain ⟨y, hy, h⟩ := bind_ok h
    exact ⟨fun _ => ⟨y, hy, (Except.ok.inj h).symm⟩, by simp⟩
  | false =>
    rw [if_neg (by simp)] at h
    exact ⟨by simp, fun _ => (Except.ok.inj h).symm⟩

theorem txtLine_ok {float : List Char → Py K} {v v' : TxtVars K} {line : List Char} (h : txtLine float v line = .ok v') :
    (("reference-dimensionless-spin1".toList <:+: line → ∃ x, numbers float line = .ok x ∧ v'.chi1 = some x) ∧
      (¬ "reference-dimensionless-spin1".toList <:+: line → v'.chi1 = v.chi1)) ∧
    (("reference-dimensionless-spin2".toList <:+: line → ∃ x, numbers float line = .ok x ∧ v'.chi2 = some x) ∧
      (¬ "reference-dimensionless-spin2".toList <:+: line → v'.chi2 = v.chi2)) ∧
    (("reference-mass1".toList <:+: line → ∃ x, number float line = .ok x ∧ v'.m1 = some x) ∧
      (¬ "reference-mass1".toList <:+: line → v'.m1 = v.m1)) ∧
    (("reference-mass2".toList <:+: line → ∃ x, number float line = .ok x ∧ v'.m2 = some x) ∧
      (¬ "reference-mass2".toList <:+: line → v'.m2 = v.m2)) ∧
    (("relaxation-time".toList <:+: line → ∃ x, number float line = .ok x ∧ v'.tRelax = some x) ∧
      (¬ "relaxation-time".toList <:+: line → v'.tRelax = v.tRelax)) := by
  unfold txtLine at h
  dsimp only at h
  obtain ⟨v1, e1, h⟩ := bind_ok h
  obtain ⟨v2, e2, h⟩ := bind_ok h
  obtain ⟨v3, e3, h⟩ := bind_ok h
  obtain ⟨v4, e4, h⟩ := bind_ok h
  have e1 := cond_set (set := fun (v : TxtVars K) x => { v with chi1 := some x }) e1
  have e2 := cond_set (set := fun (v : TxtVars K) x => { v with chi2 := some x }) e2
  have e3 := cond_set (set := fun (v : TxtVars K) x => { v with m1 := some x }) e3
  have e4 := cond_set (set := fun (v : TxtVars K) x => { v with m2 := some x }) e4
  have e5 := cond_set (set := fun (v : TxtVars K) x => { v with tRelax := some x }) h
  rw [← Bool.not_eq_true, has_iff_infix] at e1 e2 e3 e4 e5
  have f1 : v2.chi1 = v1.chi1 ∧ v2.m1 = v1.m1 ∧ v2.m2 = v1.m2 ∧ v2.tRelax = v1.tRelax := by
    by_cases hc : "reference-dimensionless-spin2".toList <:+: line
    · obtain ⟨y, _, rfl⟩ := e2.1 hc; exact ⟨rfl, rfl, rfl, rfl⟩
    · rw [e2.2 hc]; exact ⟨rfl, rfl, rfl, rfl⟩
  have f0 : v1.chi2 = v.chi2 ∧ v1.m1 = v.m1 ∧ v1.m2 = v.m2 ∧ v1.tRelax = v.tRelax := by
    by_cases hc : "reference-dimensionless-spin1".toList <:+: line
    · obtain ⟨y, _, rfl⟩ := e1.1 hc; exact ⟨rfl, rfl, rfl, rfl⟩
    · rw [e1.2 hc]; exact ⟨rfl, rfl, rfl, rfl⟩
  have f2 : v3.chi1 = v2.chi1 ∧ v3.chi2 = v2.chi2 ∧ v3.m2 = v2.m2 ∧ v3.tRelax = v2.tRelax := by
    by_cases hc : "reference-mass1".toList <:+: line
    · obtain ⟨y, _, rfl⟩ := e3.1 hc; exact ⟨rfl, rfl, rfl, rfl⟩
    · rw [e3.2 hc]; exact ⟨rfl, rfl, rfl, rfl⟩
  have f3 : v4.chi1 = v3.chi1 ∧ v4.chi2 = v3.chi2 ∧ v4.m1 = v3.m1 ∧ v4.tRelax = v3.tRelax := by
    by_cases hc : "reference-mass2".toList <:+: line
    · obtain ⟨y, _, rfl⟩ := e4.1 hc; exact ⟨rfl, rfl, rfl, rfl⟩
    · rw [e4.2 hc]; exact ⟨rfl, rfl, rfl, rfl⟩
  have f4 : v'.chi1 = v4.chi1 ∧ v'.chi2 = v4.chi2 ∧ v'.m1 = v4.m1 ∧ v'.m2 = v4.m2 := by
    by_cases hc : "relaxation-time".toList <:+: line
    · obtain ⟨y, _, rfl⟩ := e5.1 hc; exact ⟨rfl, rfl, rfl, rfl⟩
    · rw [e5.2 hc]; exact ⟨rfl, rfl, rfl, rfl⟩
  refine ⟨⟨?_, ?_⟩, ⟨?_, ?_⟩, ⟨?_, ?_⟩, ⟨?_, ?_⟩, ⟨?_, ?_⟩⟩
  · intro hc
    obtain ⟨y, hy, rfl⟩ := e1.1 hc
    exact ⟨y, hy, by rw [f4.1, f3.1, f2.1, f1.1]⟩
  · intro hc
    rw [f4.1, f3.1, f2.1, f1.1, e1.2 hc]
  · intro hc
    obtain ⟨y, hy, rfl⟩ := e2.1 hc
    exact ⟨y, hy, by rw [f4.2.1, f3.2.1, f2.2.1]⟩
  · intro hc
    rw [f4.2.1, f3.2.1, f2.2.1, e2.2 hc, f0.1]
  · intro hc
    obtain ⟨y, hy, rfl⟩ := e3.1 hc
    exact ⟨y, hy, by rw [f4.2.2.1, f3.2.2.1]⟩
  · intro hc
    rw [f4.2.2.1, f3.2.2.1, e3.2 hc, f1.2.1, f0.2.1]
  · intro hc
    obtain ⟨y, hy, rfl⟩ := e4.1 hc
    exact ⟨y, hy, by rw [f4.2.2.2]⟩
  · intro hc
    rw [f4.2.2.2, e4.2 hc, f2.2.2.1, f1.2.2.1, f0.2.2.1]
  · intro hc
    obtain ⟨y, hy, rfl⟩ := e5.1 hc
    exact ⟨y, hy, rfl⟩
  · intro hc
    rw [e5.2 hc, f3.2.2.2, f2.2.2.2, f1.2.2.2, f0.2.2.2]

/-- **C100, text metadata.**  The masses, spins and relaxation time found are the numbers after the last `=` of the last line with
their name in it. -/
theorem C100_text {lib : SxsLib B K C} {b : B} {m1 m2 tr : K} {chi1 chi2 : List K}
    (h : metaTxt lib b = .ok (m1, m2, chi1, chi2, tr)) :
    ∃ lines, lib.lines b = .ok lines ∧
      (∃ l, LastLine lines "reference-mass1" l ∧ number lib.float l = .ok m1) ∧
      (∃ l, LastLine lines "reference-mass2" l ∧ number lib.float l = .ok m2) ∧
      (∃ l, LastLine lines "reference-dimensionless-spin1" l ∧ numbers lib.float l = .ok chi1) ∧
      (∃ l, LastLine lines "reference-dimensionless-spin2" l ∧ numbers lib.float l = .ok chi2) ∧
      (∃ l, LastLine lines "relaxation-time" l ∧ number lib.float l = .ok tr) := by
  unfold metaTxt at h
  obtain ⟨lines, hl, h⟩ := bind_ok h
  obtain ⟨v, hv, h⟩ := bind_ok h
  obtain ⟨a1, a2, a3, a4, a5⟩ := v
  cases a1 with
  | none => exact absurd h (by simp)
  | some a1 =>
  cases a2 with
  | none => exact absurd h (by simp)
  | some a2 =>
  cases a3 with
  | none => exact absurd h (by simp)
  | some a3 =>
  cases a4 with
  | none => exact absurd h (by simp)
  | some a4 =>
  cases a5 with
  | none => exact absurd h (by simp)
  | some a5 =>
  have h := Except.ok.inj h
  cases h
  refine ⟨lines, hl, ?_, ?_, ?_, ?_, ?_⟩
  · rcases foldlM_last (get := TxtVars.m1) (name := "reference-mass1") (value := number lib.float)
      (fun v l v' hs => (txtLine_ok hs).2.2.1) lines _ _ _ hv rfl with h | ⟨_, h⟩
    · exact h
    · cases h
  · rcases foldlM_last (get := TxtVars.m2) (name := "reference-mass2") (value := number lib.float)
      (fun v l v' hs => (txtLine_ok hs).2.2.2.1) lines _ _ _ hv rfl with h | ⟨_, h⟩
    · exact h
    · cases h
  · rcases foldlM_last (get := TxtVars.chi1) (name := "reference-dimensionless-spin1") (value := numbers lib.float)
      (fun v l v' hs => (txtLine_ok hs).1) lines _ _ _ hv rfl with h | ⟨_, h⟩
    · exact h
    · cases h
  · rcases foldlM_last (get := TxtVars.chi2) (name := "reference-dimensionless-spin2") (value := numbers lib.float)
      (fun v l v' hs => (txtLine_ok hs).2.1) lines _ _ _ hv rfl with h | ⟨_, h⟩
    · exact h
    · cases h
  · rcases foldlM_last (get := TxtVars.tRelax) (name := "relaxation-time") (value := number lib.float)
      (fun v l v' hs => (txtLine_ok hs).2.2.2.2) lines _ _ _ hv rfl with h | ⟨_, h⟩
    · exact h
    · cases h

/-- The metadata of a directory: those of `metadata.txt` if there is such a file, otherwise those of `metadata.json`. -/
def MetadataOf (lib : SxsLib B K C) (d : Dict String B) (m : Meta K) : Prop :=
  (∃ b, d.get? "metadata.txt" = some b ∧ metaTxt lib b = .ok m) ∨
    (d.get? "metadata.txt" = none ∧ ∃ b, d.get? "metadata.json" = some b ∧ lib.json b = .ok m)

theorem metadataOf_ok {lib : SxsLib B K C} {d : Dict String B} {m : Meta K}
    (hmeta : (if d.has "metadata.txt" then (do metaTxt lib (← open? d "metadata.txt"))
        else (do lib.json (← open? d "metadata.json"))) = .ok m) : MetadataOf lib d m := by
  by_cases hb : d.has "metadata.txt" = true
  · rw [if_pos hb] at hmeta
    obtain ⟨b, hb, hmeta⟩ := bind_ok hmeta
    exact Or.inl ⟨b, open_ok hb, hmeta⟩
  · rw [if_neg hb] at hmeta
    obtain ⟨b, hb', hmeta⟩ := bind_ok hmeta
    refine Or.inr ⟨?_, b, open_ok hb', hmeta⟩
    rw [Dict.has_iff_get?] at hb
    cases hg : d.get? "metadata.txt" with
    | none => rfl
    | some b => exact absurd ⟨b, hg⟩ hb

/-- **C100, the circular waveform.**  It is the one of C61 for the waveform returned, with the mass ratio and spins in the metadata of
the directory; it is there exactly if it was asked for. -/
theorem C100_partner [FloorRing K] [SMul K C] {fuel : ℕ} {lib : SxsLib B K C} {newFormat : Bool} {d : Dict String B}
    {kw : SxsFileKw K} {wave : Load.Wave K C} {params : Option (K × List K × List K × K)}
    (h : loadSxs fuel lib newFormat (some (some d)) kw = some (.ok (wave, params))) :
    (kw.includeZeroEcc = false → wave.zeroecc = none) ∧
    (kw.includeZeroEcc = true → ∃ m1 m2 chi1 chi2 tr q z, MetadataOf lib d (m1, m2, chi1, chi2, tr) ∧ 1 ≤ q ∧
      (0 < m2 → m2 ≤ m1 → q = m1 / m2) ∧ wave.zeroecc = some z ∧
      zeroeccForNr fuel lib.toLoadLib wave.t wave.hlm ⟨kw.approximant, q, chi1, chi2, some 0⟩ = some (.ok z)) := by
  obtain ⟨d', t, modes, horizons, hdir, hcheck, hmodes, hmake⟩ := loadSxs_ok h
  cases hdir
  obtain ⟨j, amp, peak, x, _, _, _, _, _, h6, h7, _, _⟩ := makeSxs_ok hmake
  refine ⟨h6, fun hi => ?_⟩
  obtain ⟨m1, m2, c1, c2, tr, ⟨q, c1', c2', tr'⟩, z, hmeta, hp, hz, hzz⟩ := h7 hi
  obtain ⟨hq, rfl, rfl, rfl⟩ := C59_mass_ratio hp
  refine ⟨m1, m2, c1', c2', tr', q, z, metadataOf_ok hmeta, hq, fun hpos hle => ?_, hz, hzz⟩
  have := (C59_cases (tr := tr') (chi1 := c1') (chi2 := c2') hpos).1 hle
  rw [this] at hp
  exact (congrArg Prod.fst (Except.ok.inj hp)).symm

/-- **C100, parameters.**  The parameters returned are those of the metadata of the directory: mass ratio at least 1 (C59 says which),
spins of the two bodies in the order of the file, and the relaxation time. -/
theorem C100_parameters_partial [FloorRing K] [SMul K C] {fuel : ℕ} {lib : SxsLib B K C} {newFormat : Bool} {d : Dict String B}
    {kw : SxsFileKw K} {wave : Load.Wave K C} {q tr : K} {chi1 chi2 : List K}
    (h : loadSxs fuel lib newFormat (some (some d)) kw = some (.ok (wave, some (q, chi1, chi2, tr)))) :
    ∃ m1 m2, MetadataOf lib d (m1, m2, chi1, chi2, tr) ∧ 1 ≤ q ∧ (0 < m2 → m2 ≤ m1 → q = m1 / m2) := by
  obtain ⟨d', t, modes, horizons, hdir, hcheck, hmodes, hmake⟩ := loadSxs_ok h
  cases hdir
  obtain ⟨j, amp, peak, x, _, _, _, _, _, _, _, h8, h9⟩ := makeSxs_ok hmake
  by_cases hk : kw.includeParams = true
  swap
  · have := h8 (by simpa using hk); cases this
  obtain ⟨m1, m2, c1, c2, tr', p, hmeta, hp, hpp⟩ := h9 hk
  cases hpp
  obtain ⟨hq, rfl, rfl, rfl⟩ := C59_mass_ratio hp
  refine ⟨m1, m2, ?_, hq, ?_⟩
  · exact metadataOf_ok hmeta
  · intro hpos hle
    have := (C59_cases (tr := tr) (chi1 := chi1) (chi2 := chi2) hpos).1 hle
    rw [this] at hp
    exact (congrArg Prod.fst (Except.ok.inj hp)).symm

/-- **C100, the option `metadata_path` has no effect** although it is documented as where the parameters are read from. -/
theorem C100_metadata_path_violation [FloorRing K] [SMul K C] (fuel : ℕ) (lib : SxsLib B K C) (newFormat : Bool)
    (dir : Option (Option (Dict String B))) (kw : SxsFileKw K) (p : Option String) :
    loadSxs fuel lib newFormat dir { kw with metadataPath := p } = loadSxs fuel lib newFormat dir kw := rfl

/-- **C100, orbits that go clockwise in the horizon data are not removed**: if the phase never exceeds its first value, the time the
requested number of orbits takes is found to be zero. -/
theorem C100_clockwise_violation {pi n p0 : K} {time phase : List K} {d : K} (hpi : 0 < pi) (hn : 0 < n)
    (h0 : phase[0]? = some p0) (hle : ∀ p ∈ phase, p ≤ p0) (h : horizonDuration pi time phase n = .ok d) : d = 0 := by
  unfold horizonDuration at h
  obtain ⟨q, hq, h⟩ := bind_ok h
  obtain ⟨idx, hidx, h⟩ := bind_ok h
  obtain ⟨a, ha, h⟩ := bind_ok h
  obtain ⟨b, hb, h⟩ := bind_ok h
  have hqq : q = p0 := Option.some.inj ((pyGet_getElem? hq).symm.trans h0)
  subst hqq
  have hpos : 0 < n * 2 * pi := by positivity
  obtain ⟨hlt, hmin, hfirst⟩ := argmin_spec hidx
  have hlen : 0 < (phase.map fun p => |p - (q + n * 2 * pi)|).length := by omega
  have hz : idx = 0 := by
    by_contra hne
    have := hfirst 0 hlen (Nat.pos_of_ne_zero hne)
    have h1 : idx < phase.length := by simpa using hlt
    simp only [List.getElem_map] at this
    have hp0 : phase[0] = q := by
      have := List.getElem?_eq_some_iff.mp h0
      exact this.2
    have hx := hle _ (List.getElem_mem h1)
    rw [hp0, abs_of_neg (by linarith), abs_of_neg (by linarith)] at this
    linarith
  subst hz
  rw [ha] at hb
  cases hb
  have h : a - a = d := Except.ok.inj h
  rw [← h, sub_self]

end GwEcc.Sxs

namespace GwEcc.Sxs.Demo

open Load

instance loadedDecidable : DecidableEq (Py (Load.Wave ℚ ℚ × Option (ℚ × List ℚ × List ℚ × ℚ))) :=
  letI : DecidableEq (Load.Wave ℚ ℚ × Option (ℚ × List ℚ × List ℚ × ℚ)) := inferInstance
  inferInstance

def digits (s : List Char) : Py ℚ :=
  if s.isEmpty || s.any (fun c => !c.isDigit) then .error .valueError
  else .ok ((s.foldl (fun n c => 10 * n + (c.toNat - 48)) 0 : ℕ) : ℚ)

def strain (ellMin : ℤ) (scale offset : ℚ) : Strain ℚ ℚ where
  t := [0, 1, 2, 3, 4, 5, 6, 7]
  ellMin := ellMin
  ellMax := 2
  columns := (List.range (9 - (ellMin ^ 2).toNat)).map fun (n : ℕ) =>
    [0, 1, 2, 3, 4, 3, 2, 1].map fun (x : ℚ) => scale * x + offset * ((n : ℚ) + ((ellMin ^ 2 : ℤ) : ℚ))

/-- File contents are numbers: 0 and 1 are strain files, 2 and 3 metadata, 4 horizon data, 5 the file of the old format. -/
def lib : SxsLib ℕ ℚ ℚ where
  pi := 3
  msun := 1
  mtsun := 1
  pc := 1
  c := 1
  G := 1
  choose := fun _ => .ok []
  divYlm := id
  amplitude := fun d => (d.getItem (2, 2)).map fun l => l.map fun x => |x|
  phase := id
  freqOfTime := fun _ _ _ _ _ => .ok 1
  strain := fun _ _ => .ok (strain 2 1 0)
  memory := fun _ t => .ok (strain 0 0 (t / 1000))
  sub := fun a b => a - b
  interp := fun _ col t => t.mapM fun x => pyGet col x.floor.toNat
  oldMode := fun _ _ k => .ok ([0, 1, 2, 3, 4, 5, 6, 7], [0, 1, 2, 3, 4, 3, 2, 1].map fun x => x + k.1)
  horizons := fun _ => .ok ([0, 1, 2, 3], [0, 2, 4, 6])
  lines := fun _ => .ok (["a = 1", "reference-mass1 = 4", "reference-mass2 = 2", "reference-dimensionless-spin1 = 1, 2,3",
    "reference-dimensionless-spin2 = 0,0,0", "relaxation-time = 5", "relaxation-time = 7"].map String.toList)
  float := digits
  json := fun _ => .ok (2, 2, [0], [0], 100)

def kw (keepMemory params : Bool) : SxsFileKw ℚ where
  numOrbits := 1 / 6
  includeZeroEcc := false
  includeParams := params
  keepMemory := keepMemory
  approximant := "x"
  metadataPath := none
  deltaT := 1
  modeArray := [(2, 2), (2, 1)]
  extrapOrder := "2"

def dir : Dict String ℕ := [("Strain_N2.h5", 0), ("Strain_N2.json", 1), ("metadata.json", 2)]

-- without horizon data: the phase of the (2, 2) mode is nearest to 2 at the third sample, the peak is the fourth
example : loadSxs 0 lib true (some (some dir)) (kw true true) =
    some (.ok (⟨[-2, -1, 0, 1, 2], [((2, 2), [2, 3, 4, 3, 2]), ((2, 1), [2, 3, 4, 3, 2])], none⟩, some (1, [0], [0], 100))) := by decide +kernel

-- with the circular waveform, generated in 40 samples a tenth apart of which the last 35 are used
example : ((loadSxs 1 { lib with json := fun _ => .ok (2, 2, [0, 0, 0], [0, 0, 0], 100), choose := fun a =>
      if a.eccentricity = 0 ∧ a.m1 = a.m2 then .ok ((List.range 40).map fun (k : ℕ) => 10000 - ((k : ℚ) - 35) ^ 2) else .error .exception }
      true (some (some dir)) { kw true true with includeZeroEcc := true }).map fun r => r.toOption.map fun w =>
        (w.1.t, w.1.zeroecc.map fun z => (z.1.length, z.1.head?))) =
    some (some ([-2, -1, 0, 1, 2], some (35, some (-3)))) := by decide +kernel

-- with horizon data one orbit of 2 pi / 6 takes 0 or 1; the first of the nearest is taken
example : loadSxs 0 lib true (some (some (dir ++ [("Horizons.h5", 4)]))) { kw true false with numOrbits := 1 / 3 } =
    some (.ok (⟨[-3, -2, -1, 0, 1, 2], [((2, 2), [1, 2, 3, 4, 3, 2]), ((2, 1), [1, 2, 3, 4, 3, 2])], none⟩, none)) := by decide +kernel

-- the memory is computed from ell = 0 on, and 8 / 10 is removed from the last mode, 7 / 10 from the one before
example : (readModes lib dir (kw false false)).map (fun w => w.columns.map List.head?) =
    .ok [some (-2 / 5), some (-1 / 2), some (-3 / 5), some (-7 / 10), some (-4 / 5)] := by decide +kernel

example : (strain 2 1 0).Complete ∧ (strain 0 0 1).Complete := by
  refine ⟨⟨?_, ?_, ?_⟩, ⟨?_, ?_, ?_⟩⟩ <;> decide +kernel

-- the old format with text metadata
example : loadSxs 0 lib false (some (some [("rhOverM_Asymptotic_GeometricUnits_CoM.h5", 5), ("metadata.txt", 3)])) (kw true true) =
    some (.ok (⟨[-2, -1, 0, 1, 2], [((2, 2), [4, 5, 6, 5, 4]), ((2, 1), [4, 5, 6, 5, 4])], none⟩,
      some (2, [1, 2, 3], [0, 0, 0], 7))) := by decide +kernel

example : metaTxt lib 3 = .ok (4, 2, [1, 2, 3], [0, 0, 0], 7) := by decide +kernel

example : horizonDuration (3 : ℚ) [0, 1, 2] [0, -1, -2] 2 = .ok 0 := by decide +kernel

/-- **C100 is false of the code for a new format directory that holds both metadata files**: the memory is computed with the
relaxation time in `metadata.json`, while the parameters returned are those in `metadata.txt`. -/
theorem C100_two_metadata_violation :
    ∃ w, loadSxs 0 lib true (some (some (dir ++ [("metadata.txt", 3)]))) (kw false true) =
        some (.ok (w, some (2, [1, 2, 3], [0, 0, 0], 7))) ∧
      (lib.json 2).map (fun m => m.2.2.2.2) = .ok 100 ∧ lib.memory (strain 2 1 0) 100 = .ok (strain 0 0 (1 / 10)) ∧
      readModes lib (dir ++ [("metadata.txt", 3)]) (kw false true) = .ok { strain 2 1 0 with
        columns := List.zipWith (List.zipWith lib.sub) (strain 2 1 0).columns ((strain 0 0 (1 / 10)).columns.drop 4) } :=
  ⟨⟨[-2, -1, 0, 1, 2], [((2, 2), [6 / 5, 11 / 5, 16 / 5, 11 / 5, 6 / 5]), ((2, 1), [13 / 10, 23 / 10, 33 / 10, 23 / 10, 13 / 10])], none⟩, by decide +kernel, by decide +kernel,
    by decide +kernel, by decide +kernel⟩

end GwEcc.Sxs.Demo
