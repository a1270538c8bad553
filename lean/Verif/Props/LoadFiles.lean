import Verif.Model.LoadFiles
import Verif.Props.LoadOptions
import Verif.Props.Residual

/-!
# C97: waveforms loaded from EMRI, EOB and LVCNR files
-/

set_option linter.unusedSectionVars false

namespace GwEcc.Load

section paths

theorem findIdx_some {pat : List Char} : ∀ {s : List Char} {k : ℕ}, findIdx pat s = some k →
    k ≤ s.length ∧ pat <+: s.drop k ∧ ∀ j < k, ¬ pat <+: s.drop j
  | [], k, h => by
    unfold findIdx at h
    split at h
    next hp =>
      cases h
      subst hp
      exact ⟨le_refl _, by simp, by simp⟩
    · cases h
  | c :: s, k, h => by
    unfold findIdx at h
    split at h
    next hp =>
      cases h
      exact ⟨Nat.zero_le _, List.isPrefixOf_iff_prefix.mp hp, by simp⟩
    next hp =>
      obtain ⟨j, hj, rfl⟩ := Option.map_eq_some_iff.mp h
      obtain ⟨h1, h2, h3⟩ := findIdx_some hj
      refine ⟨by simpa using h1, by simpa using h2, fun i hi => ?_⟩
      cases i with
      | zero => exact fun h => hp (List.isPrefixOf_iff_prefix.mpr h)
      | succ i => simpa using h3 i (by omega)

theorem findIdx_none {pat : List Char} : ∀ {s : List Char}, findIdx pat s = none ↔ ¬ pat <:+: s
  | [] => by
    unfold findIdx
    split
    next hp => subst hp; simp
    next hp => simp [hp]
  | c :: s => by
    unfold findIdx
    split
    next hp =>
      simp only [reduceCtorEq, false_iff, not_not]
      exact (List.isPrefixOf_iff_prefix.mp hp).isInfix
    next hp =>
      rw [Option.map_eq_none_iff, findIdx_none, List.infix_cons_iff, not_or]
      exact ⟨fun h => ⟨fun h' => hp (List.isPrefixOf_iff_prefix.mpr h'), h⟩, fun h => h.2⟩

/-- `find` gives -1 exactly if the text does not occur. -/
theorem pyFind_neg {pat s : List Char} : pyFind pat s = -1 ↔ ¬ pat <:+: s := by
  rw [← findIdx_none]
  unfold pyFind
  cases findIdx pat s with
  | none => simp
  | some k => simp

theorem pySliceTo_nat {α : Type} (l : List α) {k : ℕ} (h : k ≤ l.length) : pySliceTo l (k : ℤ) = l.take k := by
  unfold pySliceTo pyBound
  rw [if_neg (by omega)]
  simp [h]

/-- The first occurrence of a text that is known to occur at `pre.length`. -/
theorem findIdx_first {pat pre post : List Char} (h : ∀ j < pre.length, ¬ pat <+: (pre ++ pat ++ post).drop j) :
    findIdx pat (pre ++ pat ++ post) = some pre.length := by
  cases hf : findIdx pat (pre ++ pat ++ post) with
  | none =>
    exact absurd ⟨pre, post, rfl⟩ (findIdx_none.mp hf)
  | some k =>
    obtain ⟨h1, h2, h3⟩ := findIdx_some hf
    rcases lt_trichotomy k pre.length with hk | hk | hk
    · exact absurd h2 (h k hk)
    · rw [hk]
    · exfalso
      refine h3 _ hk ?_
      rw [List.append_assoc, List.drop_left]
      exact List.prefix_append ..

end paths

section
variable {K C : Type} [Field K] [LinearOrder K] [IsStrictOrderedRing K] [FloorRing K] [SMul K C]

/-- The times are relative to the merger: the peak of the amplitude is at 0. -/
def MergerAtZero (lib : LoadLib K C) (t : List K) (hlm : Dict LM (List C)) : Prop :=
  ∃ amp v, lib.amplitude hlm = .ok amp ∧ peakTime t amp = .ok (0, v)

theorem peak_at_zero {t amp : List K} {p : K × K} (h : peakTime t amp = .ok p) :
    ∃ v, peakTime (t.map (· - p.1)) amp = .ok (0, v) := by
  have := GwEcc.peakTime_shift t amp (-p.1)
  rw [h] at this
  refine ⟨p.2, ?_⟩
  simp only [← sub_eq_add_neg] at this
  rw [this]
  show Except.ok _ = _
  simp

theorem pySlice_get {α : Type} (l : List α) (a b : ℤ) (i : ℕ) :
    (pySlice l a b)[i]? = if pyBound l.length a + i < pyBound l.length b then l[pyBound l.length a + i]? else none := by
  unfold pySlice
  rw [List.getElem?_drop, List.getElem?_take]

theorem pySlice_len {α β : Type} {l : List α} {m : List β} (h : l.length = m.length) (a b : ℤ) :
    (pySlice l a b).length = (pySlice m a b).length := by
  unfold pySlice
  simp [h]

theorem slice_map {α β : Type} (f : α → β) (l : List α) (a b : ℤ) : pySlice (l.map f) a b = (pySlice l a b).map f := by
  unfold pySlice
  rw [List.map_drop, List.map_take, List.length_map]

theorem emriRead_ok {lib : FileLib K C} {path : List Char} {s e : Option K} {t : List K} {h22 : List C} {i j : ℤ}
    (h : emriRead lib path s e = .ok (t, h22, i, j)) :
    ∃ rows amp peak, lib.emri path = .ok rows ∧
      lib.amplitude [((2, 2), rows.map fun r => lib.complex r.2.1 r.2.2)] = .ok amp ∧ peakTime (rows.map fun r => r.1) amp = .ok peak ∧
      t = (pySlice rows i j).map (fun r => r.1 - peak.1) ∧ h22 = (pySlice rows i j).map (fun r => lib.complex r.2.1 r.2.2) := by
  unfold emriRead emriCut at h
  obtain ⟨rows, h0, h⟩ := bind_ok h
  obtain ⟨amp, h1, h⟩ := bind_ok h
  obtain ⟨peak, h2, h⟩ := bind_ok h
  obtain ⟨st, h3, h⟩ := bind_ok h
  obtain ⟨en, h4, h⟩ := bind_ok h
  cases h
  refine ⟨rows, amp, peak, h0, h1, h2, ?_, ?_⟩
  · rw [List.map_map, slice_map]
    rfl
  · rw [slice_map]

/-- **C97, EMRI, samples.**  Without a time step, what is returned at one position comes from one row of the file: its time relative
to the peak of the amplitude, its real and imaginary part as one complex number, and the eccentricity in the same row of the file of
eccentricities. -/
theorem C97_emri_rows {lib : FileLib K C} {kw : EmriKw K} {w : EmriWave K C} (hd : kw.deltaT = none) (h : loadEmri lib kw = .ok w) :
    ∃ path rows amp peak, kw.filepath = some path ∧ lib.emri path = .ok rows ∧
      lib.amplitude [((2, 2), rows.map fun r => lib.complex r.2.1 r.2.2)] = .ok amp ∧ peakTime (rows.map fun r => r.1) amp = .ok peak ∧
      w.h22.length = w.t.length ∧ (w.geodesic.isSome = kw.includeGeodesic) ∧ ∃ k : ℕ,
      (∀ (i : ℕ) (x : K), w.t[i]? = some x → ∃ r, rows[k + i]? = some r ∧ x = r.1 - peak.1 ∧
        w.h22[i]? = some (lib.complex r.2.1 r.2.2)) ∧
      ∀ e, w.geodesic = some e → ∃ es, lib.emriEcc (eccPath path) = .ok es ∧
        (es.length = rows.length → e.length = w.t.length ∧ ∀ i < w.t.length, e[i]? = es[k + i]?) := by
  unfold loadEmri at h
  split at h
  · cases h
  next path hpath =>
  obtain ⟨⟨tN, hN, a, b⟩, h1, h⟩ := bind_ok h
  dsimp only at h
  rw [hd] at h
  dsimp only at h
  rw [ok_bind] at h
  dsimp only at h
  obtain ⟨z, h2, h⟩ := bind_ok h
  obtain ⟨e, h3, h⟩ := bind_ok h
  cases h
  obtain ⟨rows, amp, peak, g0, g1, g2, rfl, rfl⟩ := emriRead_ok h1
  refine ⟨path, rows, amp, peak, hpath, g0, g1, g2, by simp, ?_, pyBound rows.length a, ?_, ?_⟩
  · dsimp only
    split at h3
    next hg =>
      obtain ⟨es, h4, h5⟩ := bind_ok h3
      cases h5
      rw [hg]
      rfl
    next hg =>
      cases h3
      simpa using hg
  · intro i x hx
    dsimp only at hx ⊢
    rw [List.getElem?_map] at hx ⊢
    obtain ⟨r, hr, rfl⟩ := Option.map_eq_some_iff.mp hx
    rw [hr]
    rw [pySlice_get] at hr
    split at hr
    · exact ⟨r, hr, rfl, rfl⟩
    · cases hr
  · intro e' he
    dsimp only at he ⊢
    subst he
    split at h3
    next hg =>
      obtain ⟨es, h4, h5⟩ := bind_ok h3
      cases h5
      refine ⟨es, h4, fun hl => ⟨?_, fun i hi => ?_⟩⟩
      · rw [List.length_map]
        exact pySlice_len hl a b
      · rw [List.length_map] at hi
        rw [pySlice_get, hl, if_pos]
        by_contra hcon
        have : (pySlice rows a b)[i]? = none := by rw [pySlice_get, if_neg hcon]
        rw [List.getElem?_eq_none_iff] at this
        omega
    · cases h3

/-- **C97, EMRI, the part of the file.**  Without a time step, the rows returned are those from the one nearest in time (relative to
the peak) to the start time, or the first one, up to but not including the one nearest to the end time, or the last one (see
`C72_default_violation`). -/
theorem C97_emri_window {lib : FileLib K C} {kw : EmriKw K} {w : EmriWave K C} (hd : kw.deltaT = none) (h : loadEmri lib kw = .ok w) :
    ∃ path rows amp peak, kw.filepath = some path ∧ lib.emri path = .ok rows ∧
      lib.amplitude [((2, 2), rows.map fun r => lib.complex r.2.1 r.2.2)] = .ok amp ∧ peakTime (rows.map fun r => r.1) amp = .ok peak ∧
      ∃ a b : ℕ, w.t = ((rows.take b).drop a).map (fun r => r.1 - peak.1) ∧
        w.h22 = ((rows.take b).drop a).map (fun r => lib.complex r.2.1 r.2.2) ∧
        (kw.startTime = none → a = 0) ∧ (kw.endTime = none → b = rows.length - 1) ∧
        (∀ s, kw.startTime = some s → ∃ r, rows[a]? = some r ∧ ∀ z ∈ rows, |r.1 - peak.1 - s| ≤ |z.1 - peak.1 - s|) ∧
        ∀ e, kw.endTime = some e → ∃ r, rows[b]? = some r ∧ ∀ z ∈ rows, |r.1 - peak.1 - e| ≤ |z.1 - peak.1 - e| := by
  unfold loadEmri at h
  split at h
  · cases h
  next path hpath =>
  obtain ⟨⟨tN, hN, i, j⟩, h1, h⟩ := bind_ok h
  dsimp only at h
  rw [hd] at h
  dsimp only at h
  rw [ok_bind] at h
  dsimp only at h
  obtain ⟨z, _, h⟩ := bind_ok h
  obtain ⟨e, _, h⟩ := bind_ok h
  cases h
  unfold emriRead emriCut at h1
  obtain ⟨rows, g0, h1⟩ := bind_ok h1
  obtain ⟨amp, g1, h1⟩ := bind_ok h1
  obtain ⟨peak, g2, h1⟩ := bind_ok h1
  obtain ⟨st, g3, h1⟩ := bind_ok h1
  obtain ⟨en, g4, h1⟩ := bind_ok h1
  cases h1
  refine ⟨path, rows, amp, peak, hpath, g0, g1, g2, pyBound rows.length i, pyBound rows.length j, ?_, ?_, ?_, ?_, ?_, ?_⟩
  · dsimp only
    rw [List.map_map, slice_map]
    rfl
  · dsimp only
    rw [slice_map]
    rfl
  · intro hs
    rw [hs] at g3
    cases g3
    rfl
  · intro hs
    rw [hs] at g4
    cases g4
    unfold pyBound
    rw [if_pos (by decide)]
    omega
  · intro s hs
    rw [hs] at g3
    dsimp only at g3
    cases ha : argmin (((rows.map fun r => r.1).map (· - peak.1)).map fun x => |x - s|) with
    | error er => rw [ha] at g3; cases g3
    | ok a =>
      rw [ha] at g3
      cases g3
      obtain ⟨x, f1, f2, _⟩ := argmin_nearest ha
      rw [List.map_map, List.getElem?_map] at f1
      obtain ⟨r, f3, rfl⟩ := Option.map_eq_some_iff.mp f1
      have hlt := (List.getElem?_eq_some_iff.mp f3).1
      refine ⟨r, ?_, fun z hz => ?_⟩
      · have : pyBound rows.length ((a : ℕ) : ℤ) = a := by
          unfold pyBound
          rw [if_neg (by omega)]
          omega
        rw [this]
        exact f3
      · exact f2 _ (List.mem_map_of_mem (List.mem_map_of_mem hz))
  · intro s hs
    rw [hs] at g4
    dsimp only at g4
    cases ha : argmin (((rows.map fun r => r.1).map (· - peak.1)).map fun x => |x - s|) with
    | error er => rw [ha] at g4; cases g4
    | ok a =>
      rw [ha] at g4
      cases g4
      obtain ⟨x, f1, f2, _⟩ := argmin_nearest ha
      rw [List.map_map, List.getElem?_map] at f1
      obtain ⟨r, f3, rfl⟩ := Option.map_eq_some_iff.mp f1
      have hlt := (List.getElem?_eq_some_iff.mp f3).1
      refine ⟨r, ?_, fun z hz => ?_⟩
      · have : pyBound rows.length ((a : ℕ) : ℤ) = a := by
          unfold pyBound
          rw [if_neg (by omega)]
          omega
        rw [this]
        exact f3
      · exact f2 _ (List.mem_map_of_mem (List.mem_map_of_mem hz))

theorem arange_mem {a b d : K} {t : List K} (hd : 0 < d) (h : arange a b d = .ok t) (k : ℕ) (x : K) :
    t[k]? = some x ↔ x = a + k * d ∧ x < b := by
  unfold arange at h
  rw [if_neg hd.ne'] at h
  cases h
  rw [List.getElem?_map]
  by_cases hk : k < ⌈(b - a) / d⌉.toNat
  · rw [List.getElem?_range hk]
    have hlt : a + k * d < b := by
      have h1 : (k : ℤ) < ⌈(b - a) / d⌉ := by omega
      have h2 := Int.lt_ceil.mp h1
      rw [lt_div_iff₀ hd] at h2
      push_cast at h2
      linarith
    constructor
    · intro he
      cases he
      exact ⟨rfl, hlt⟩
    · rintro ⟨rfl, _⟩
      rfl
  · rw [List.getElem?_eq_none (by simpa using hk)]
    constructor
    · intro he
      cases he
    · rintro ⟨rfl, hx⟩
      exfalso
      apply hk
      have : (k : K) < (b - a) / d := by rw [lt_div_iff₀ hd]; linarith
      have h2 : (k : ℤ) < ⌈(b - a) / d⌉ := Int.lt_ceil.mpr (by push_cast; exact this)
      omega

/-- **C97, EMRI, time step.**  With a time step the result is the one without, interpolated to the multiples of the step from the
first time up to the last: amplitude and unwrapped phase of the mode, and the modulus of the eccentricity. -/
theorem C97_emri_grid {lib : FileLib K C} {kw : EmriKw K} {w : EmriWave K C} {d : K} (hd : kw.deltaT = some d) (hpos : 0 < d)
    (h : loadEmri lib kw = .ok w) :
    ∃ w0 a b amp phase, loadEmri lib { kw with deltaT := none } = .ok w0 ∧ w0.t[0]? = some a ∧ w0.t.getLast? = some b ∧
      (∀ (k : ℕ) (x : K), w.t[k]? = some x ↔ x = a + k * d ∧ x < b) ∧
      lib.interp w.t w0.t (w0.h22.map lib.modulus) = .ok amp ∧ lib.interp w.t w0.t (lib.angles w0.h22) = .ok phase ∧
      w.h22 = List.zipWith lib.polar amp phase ∧ w.zeroecc = w0.zeroecc ∧ w.geodesic.isSome = w0.geodesic.isSome ∧
      ∀ e0 e, w0.geodesic = some e0 → w.geodesic = some e → lib.interp w.t w0.t (e0.map fun x => |x|) = .ok e := by
  unfold loadEmri at h ⊢
  dsimp only at h ⊢
  split at h
  · cases h
  next path hpath =>
  obtain ⟨⟨tN, hN, i, j⟩, h1, h⟩ := bind_ok h
  dsimp only at h
  rw [hd] at h
  dsimp only at h
  obtain ⟨⟨t, hh⟩, h2, h⟩ := bind_ok h
  dsimp only at h
  obtain ⟨z, h3, h⟩ := bind_ok h
  obtain ⟨e, h4, h⟩ := bind_ok h
  cases h
  obtain ⟨t', g1, h2⟩ := bind_ok h2
  obtain ⟨amp, g2, h2⟩ := bind_ok h2
  obtain ⟨phase, g3, h2⟩ := bind_ok h2
  cases h2
  unfold emriTimes at g1
  obtain ⟨a, e1, g1⟩ := bind_ok g1
  obtain ⟨b, e2, g1⟩ := bind_ok g1
  obtain ⟨s, e3, g1⟩ := bind_ok g1
  have g1 := Except.ok.inj g1
  have hlast : tN.getLast? = some b := by
    split at e2
    · rename_i b' hb'
      cases e2
      exact hb'
    · cases e2
  have hst : s = t := by
    rw [← g1]
    symm
    refine List.filter_eq_self.mpr fun x hx => ?_
    obtain ⟨k, hk⟩ := List.mem_iff_getElem?.mp hx
    obtain ⟨rfl, hlt⟩ := (arange_mem hpos e3 k x).mp hk
    have : 0 ≤ (k : K) * d := by positivity
    simp only [decide_eq_true_eq]
    exact ⟨by linarith, hlt.le⟩
  subst hst
  rw [h1, ok_bind]
  dsimp only
  rw [ok_bind]
  dsimp only
  rw [h3, ok_bind]
  by_cases hg : kw.includeGeodesic = true
  · rw [if_pos hg] at h4 ⊢
    obtain ⟨es, q1, h4⟩ := bind_ok h4
    obtain ⟨e', q2, h4⟩ := bind_ok h4
    cases h4
    rw [q1, ok_bind]
    refine ⟨_, a, b, amp, phase, rfl, pyGet_getElem? e1, hlast, arange_mem hpos e3, g2, g3, rfl, rfl, rfl, ?_⟩
    rintro e0 e1 ⟨⟩ ⟨⟩
    exact q2
  · rw [if_neg hg] at h4 ⊢
    cases h4
    refine ⟨_, a, b, amp, phase, rfl, pyGet_getElem? e1, hlast, arange_mem hpos e3, g2, g3, rfl, rfl, rfl, ?_⟩
    rintro e0 e1 ⟨⟩

/-- **C97, EMRI, circular partner** (for paths with "e0" in the directory: `C97_emri_directory_violation`).  If "e0" first occurs in
the file's name, the circular waveform is read from the file of the same directory whose name has e0.000.h5 from there on. -/
theorem C97_emri_partner_partial {lib : FileLib K C} {kw : EmriKw K} {w : EmriWave K C} {dir stem rest : List Char}
    (hp : kw.filepath = some (dir ++ '/' :: stem ++ "e0".toList ++ rest)) (hz : kw.includeZeroEcc = true) (hn : kw.filepathZeroEcc = none)
    (hfirst : ¬ "e0".toList <:+: dir ++ '/' :: stem ++ ['e']) (h : loadEmri lib kw = .ok w) :
    ∃ w0, loadEmri lib ⟨some (dir ++ '/' :: stem ++ "e0.000.h5".toList), false, none, none, none, none, false⟩ = .ok w0 ∧
      w.zeroecc = some (w0.t, w0.h22.map (lib.sqrtTwoPi⁻¹ • ·)) := by
  have hpath : partnerPath (dir ++ '/' :: stem ++ "e0".toList ++ rest) = dir ++ '/' :: stem ++ "e0.000.h5".toList := by
    unfold partnerPath pyFind
    rw [findIdx_first]
    · dsimp only
      rw [pySliceTo_nat _ (by simp), List.append_assoc (dir ++ '/' :: stem), List.take_left']
      rfl
    · intro j hj hcon
      apply hfirst
      obtain ⟨s, hs⟩ := hcon
      have h2 : ((dir ++ '/' :: stem ++ ['e']) ++ ('0' :: rest)).drop j = (dir ++ '/' :: stem ++ ['e']).drop j ++ ('0' :: rest) :=
        List.drop_append_of_le_length (by simp at hj ⊢; omega)
      have h3 : dir ++ '/' :: stem ++ "e0".toList ++ rest = (dir ++ '/' :: stem ++ ['e']) ++ ('0' :: rest) := by
        simp [show "e0".toList = ['e', '0'] from rfl]
      rw [h3, h2] at hs
      have h4 : "e0".toList <+: (dir ++ '/' :: stem ++ ['e']).drop j :=
        List.prefix_of_prefix_length_le ⟨s, hs⟩ (List.prefix_append ..) (by
          simp [show "e0".toList = ['e', '0'] from rfl] at hj ⊢
          omega)
      exact h4.isInfix.trans (List.drop_suffix ..).isInfix
  unfold loadEmri at h
  rw [hp] at h
  dsimp only at h
  obtain ⟨⟨tN, hN, i, j⟩, h1, h⟩ := bind_ok h
  dsimp only at h
  obtain ⟨⟨t, hh⟩, h2, h⟩ := bind_ok h
  dsimp only at h
  obtain ⟨z, h3, h⟩ := bind_ok h
  obtain ⟨e, h4, h⟩ := bind_ok h
  cases h
  rw [if_pos hz, hn, Option.getD_none, hpath] at h3
  obtain ⟨⟨tz, hz', i', j'⟩, h5, h3⟩ := bind_ok h3
  cases h3
  refine ⟨⟨tz, hz', none, none⟩, ?_, rfl⟩
  unfold loadEmri
  dsimp only
  rw [h5]
  rfl

/-- **C97 fails** for EMRI files in a directory with "e0" in its name (such as `spe0`, or a user called `charlie01`): the path made up
for the circular waveform is outside the directory. -/
theorem C97_emri_path_violation {dir : List Char} (hd : "e0".toList <:+: dir) (name : List Char) :
    ¬ (dir ++ ['/'] <+: partnerPath (dir ++ '/' :: name)) := by
  obtain ⟨pre, post, rfl⟩ := hd
  have hin : ∃ k, findIdx "e0".toList (pre ++ "e0".toList ++ post ++ '/' :: name) = some k ∧ k ≤ pre.length := by
    cases hf : findIdx "e0".toList (pre ++ "e0".toList ++ post ++ '/' :: name) with
    | none => exact absurd ⟨pre, post ++ '/' :: name, by simp⟩ (findIdx_none.mp hf)
    | some k =>
      refine ⟨k, rfl, ?_⟩
      obtain ⟨_, _, h3⟩ := findIdx_some hf
      by_contra hlt
      push Not at hlt
      refine h3 _ hlt ?_
      rw [List.append_assoc, List.append_assoc, List.drop_left]
      exact List.prefix_append ..
  obtain ⟨k, hk, hle⟩ := hin
  unfold partnerPath pyFind
  rw [hk]
  dsimp only
  rw [pySliceTo_nat _ (by simp; omega)]
  rintro ⟨s, hs⟩
  have h1 := congrArg (fun l : List Char => l[(pre ++ "e0".toList ++ post).length]?) hs
  rw [List.getElem?_append_left (by simp), List.getElem?_append_right (le_refl _)] at h1
  rw [List.getElem?_append_right (by simp; omega)] at h1
  simp only [Nat.sub_self, List.getElem?_cons_zero] at h1
  have h2 := List.mem_of_getElem? h1.symm
  revert h2
  decide

/-- **C97 fails.**  So if all files are in such a directory, asking for the circular waveform without giving its path always raises. -/
theorem C97_emri_directory_violation {lib : FileLib K C} {kw : EmriKw K} {dir name : List Char} (hd : "e0".toList <:+: dir)
    (hp : kw.filepath = some (dir ++ '/' :: name)) (hz : kw.includeZeroEcc = true) (hn : kw.filepathZeroEcc = none)
    (hfiles : ∀ p rows, lib.emri p = .ok rows → dir ++ ['/'] <+: p) (w : EmriWave K C) : loadEmri lib kw ≠ .ok w := by
  intro h
  unfold loadEmri at h
  rw [hp] at h
  dsimp only at h
  obtain ⟨⟨tN, hN, i, j⟩, h1, h⟩ := bind_ok h
  dsimp only at h
  obtain ⟨⟨t, hh⟩, h2, h⟩ := bind_ok h
  dsimp only at h
  obtain ⟨z, h3, h⟩ := bind_ok h
  rw [if_pos hz, hn, Option.getD_none] at h3
  obtain ⟨r, h5, h3⟩ := bind_ok h3
  unfold emriRead at h5
  obtain ⟨rows, h6, h5⟩ := bind_ok h5
  exact C97_emri_path_violation hd name (hfiles _ _ h6)

theorem eobRead_ok {lib : FileLib K C} {path : List Char} {t : List K} {hlm : Dict LM (List C)} (h : eobRead lib path = .ok (t, hlm)) :
    ∃ t0 h22 shift, lib.eob path = .ok (t0, h22) ∧ hlm = [((2, 2), h22)] ∧ t = t0.map (· - shift) ∧ MergerAtZero lib.toLoadLib t hlm := by
  unfold eobRead at h
  obtain ⟨⟨t0, h22⟩, h1, h⟩ := bind_ok h
  dsimp only at h
  obtain ⟨amp, h2, h⟩ := bind_ok h
  obtain ⟨peak, h3, h⟩ := bind_ok h
  cases h
  obtain ⟨v, hv⟩ := peak_at_zero h3
  exact ⟨t0, h22, peak.1, h1, rfl, rfl, amp, v, h2, hv⟩

/-- **C97, EOB.**  The (2, 2) mode of the file, and of the circular one if asked for, each with times relative to its own merger. -/
theorem C97_eob {lib : FileLib K C} {p pz : Option (List Char)} {b : Bool} {w : Wave K C} (h : loadEob lib p pz b = .ok w) :
    ∃ path t0 h22 shift, p = some path ∧ "EccTest".toList <:+: path ∧ lib.eob path = .ok (t0, h22) ∧ w.hlm = [((2, 2), h22)] ∧
      w.t = t0.map (· - shift) ∧ MergerAtZero lib.toLoadLib w.t w.hlm ∧ (b = false → w.zeroecc = none) ∧
      (b = true → ∃ pathZ tz0 hz22 shiftZ, pz = some pathZ ∧ lib.eob pathZ = .ok (tz0, hz22) ∧
        w.zeroecc = some (tz0.map (· - shiftZ), [((2, 2), hz22)]) ∧
        MergerAtZero lib.toLoadLib (tz0.map (· - shiftZ)) [((2, 2), hz22)]) := by
  unfold loadEob at h
  split at h
  · cases h
  next path =>
  split at h
  · cases h
  split at h
  · cases h
  next hf =>
  rw [pyFind_neg, not_not] at hf
  obtain ⟨⟨t, hlm⟩, h1, h⟩ := bind_ok h
  dsimp only at h
  obtain ⟨t0, h22, shift, g1, rfl, rfl, g4⟩ := eobRead_ok h1
  split at h
  next hb =>
    split at h
    · cases h
    rename_i pathZ _ _
    obtain ⟨⟨tz, hz⟩, h2, h⟩ := bind_ok h
    cases h
    obtain ⟨tz0, hz22, shiftZ, k1, rfl, rfl, k4⟩ := eobRead_ok h2
    refine ⟨path, t0, h22, shift, rfl, hf, g1, rfl, rfl, g4, ?_, fun _ => ⟨pathZ, tz0, hz22, shiftZ, rfl, k1, rfl, k4⟩⟩
    rw [hb]
    rintro ⟨⟩
  next hb =>
    cases h
    exact ⟨path, t0, h22, shift, rfl, hf, g1, rfl, rfl, g4, fun _ => rfl, fun h => absurd h hb⟩

/-- **C97, EOB.**  A missing path, a missing path of the circular waveform that was asked for, and a path without "EccTest" raise
without any file being read. -/
theorem C97_eob_rejected (lib : FileLib K C) {p pz : Option (List Char)} {b : Bool}
    (h : p = none ∨ (b = true ∧ pz = none) ∨ ∃ path, p = some path ∧ ¬ "EccTest".toList <:+: path) :
    loadEob lib p pz b = .error .exception := by
  unfold loadEob
  split
  · rfl
  next path =>
  split
  · rfl
  next h2 =>
  split
  · rfl
  next h3 =>
  rw [pyFind_neg, not_not] at h3
  rcases h with h | h | ⟨q, hq, hn⟩
  · cases h
  · exact absurd h h2
  · cases hq
    exact absurd h3 hn

theorem get?_append {V : Type} : ∀ (d e : Dict LM V) (k : LM), Dict.get? (d ++ e) k = (Dict.get? d k).or (Dict.get? e k)
  | [], e, k => rfl
  | (a, v) :: d, e, k => by
    rw [List.cons_append, Dict.get?_cons, Dict.get?_cons, get?_append d e k]
    split <;> rfl

theorem lvcnrModes_get (s : K) (l : List (LM × List C)) (lm : LM) :
    (lvcnrModes s l).get? lm = (Dict.get? l.reverse lm).map fun h => h.map (s⁻¹ • ·) := by
  have key : ∀ (l : List (LM × List C)) (acc : Dict LM (List C)),
      Dict.get? (l.foldl (fun d p => Dict.set d p.1 (p.2.map (s⁻¹ • ·))) acc) lm =
        ((Dict.get? l.reverse lm).map fun h => h.map (s⁻¹ • ·)).or (acc.get? lm) := by
    intro l
    induction l with
    | nil => intro acc; rfl
    | cons p l ih =>
      intro acc
      rw [List.foldl_cons, ih, Dict.get?_set, List.reverse_cons, get?_append]
      cases hl : Dict.get? l.reverse lm with
      | some h => rfl
      | none =>
        obtain ⟨k, v⟩ := p
        rw [Dict.get?_cons]
        by_cases h : lm = k
        · rw [if_pos h, if_pos h]; rfl
        · rw [if_neg h, if_neg h]; rfl
  unfold lvcnrModes
  rw [key]
  cases Dict.get? l.reverse lm <;> rfl

theorem get?_mapVal {V W : Type} (f : V → W) : ∀ (d : Dict LM V) (k : LM),
    Dict.get? (d.map fun m => (m.1, f m.2)) k = (Dict.get? d k).map f
  | [], k => rfl
  | (a, v) :: d, k => by
    rw [List.map_cons, Dict.get?_cons, Dict.get?_cons, get?_mapVal f d k]
    split <;> rfl

theorem lvcnrFinish_ok {fuel : ℕ} {lib : FileLib K C} {kw : LvcnrKw K} {f : Option K → Option K}
    {r : Py (List K × Dict LM (List C) × LvcnrParams K)} {w : Wave K C} {params : Option (LvcnrParams K)}
    (h : lvcnrFinish fuel lib kw f r = some (.ok (w, params))) :
    ∃ p, r = .ok (w.t, w.hlm, p) ∧ params = (if kw.includeParams then some p else none) ∧ (kw.includeZeroEcc = false → w.zeroecc = none) ∧
      (kw.includeZeroEcc = true → ∃ z, w.zeroecc = some z ∧
        zeroeccForNr fuel lib.toLoadLib w.t w.hlm ⟨kw.approximant, p.q, p.chi1, p.chi2, f p.meanAno⟩ = some (.ok z)) := by
  unfold lvcnrFinish at h
  split at h
  · cases h
  next t modes p =>
  dsimp only at h
  split at h
  next hz =>
    obtain ⟨r, hr, h⟩ := Option.map_eq_some_iff.mp h
    obtain ⟨z, hz', h⟩ := bind_ok h
    cases h
    subst hz'
    exact ⟨p, rfl, rfl, (by rw [hz]; rintro ⟨⟩), fun _ => ⟨z, rfl, hr⟩⟩
  next hz =>
    cases h
    exact ⟨p, rfl, rfl, fun _ => rfl, fun h => absurd h hz⟩

/-- **C97, LVCNR.**  The library is asked for the time step and starting frequency of the call (the file's if `Momega0` is 0) and a
binary of ten solar masses with the file's mass ratio and spins; every mode returned is what it gave, in units of the mass, from some
sample on; the times are spaced by `deltaTOverM` and, before that cut, relative to the merger; the parameters are those of the file, and
the circular waveform is the one of C61 for them. -/
theorem C97_lvcnr {fuel : ℕ} {lib : FileLib K C} {kw : LvcnrKw K} {w : Wave K C} {params : Option (LvcnrParams K)}
    (hpi : lib.pi ≠ 0) (hT : lib.mtsun ≠ 0) (hM : lib.msun ≠ 0) (h : loadLvcnr fuel lib kw = some (.ok (w, params))) :
    ∃ (f : LvcnrFile K) (l : List (LM × List C)) (T : List K) (H : Dict LM (List C)) (shift : K) (k : ℕ),
      lib.lvcnr kw.filepath = .ok f ∧
      lib.nrModes (kw.deltaTOverM * (10 * lib.mtsun)) (10 * lib.msun * (f.m1 / (f.m1 + f.m2))) (10 * lib.msun * (f.m2 / (f.m1 + f.m2)))
        (10 ^ 6 * lib.pc) (if kw.momega0 = 0 then f.fLower / 10 else kw.momega0 / (lib.pi * (10 * lib.mtsun))) f.chi1 f.chi2
        kw.filepath = .ok l ∧
      (∀ lm, H.get? lm = (Dict.get? l.reverse lm).map fun h => h.map ((ampToMks lib.toLoadLib 10 1)⁻¹ • ·)) ∧
      (∀ (i : ℕ) (x : K), T[i]? = some x → x = i * kw.deltaTOverM - shift) ∧ MergerAtZero lib.toLoadLib T H ∧
      w.t = T.drop k ∧ (∀ lm, w.hlm.get? lm = (H.get? lm).map (List.drop k)) ∧
      params = (if kw.includeParams then some ⟨f.m1 / f.m2, f.chi1, f.chi2, f.ecc, f.meanAno⟩ else none) ∧
      w.zeroecc.isSome = kw.includeZeroEcc ∧ ∀ z, w.zeroecc = some z →
        zeroeccForNr fuel lib.toLoadLib w.t w.hlm ⟨kw.approximant, f.m1 / f.m2, f.chi1, f.chi2, f.meanAno⟩ = some (.ok z) := by
  unfold loadLvcnr at h
  obtain ⟨p, h1, h2, h3, h4⟩ := lvcnrFinish_ok h
  unfold lvcnrRead timeToMks at h1
  dsimp only at h1
  obtain ⟨f, g1, h1⟩ := bind_ok h1
  have h10 : (10 : K) ≠ 0 := by norm_num
  have hMT : (10 : K) * lib.mtsun ≠ 0 := mul_ne_zero h10 hT
  generalize hfl : (if kw.momega0 / lib.pi / (10 * lib.mtsun) = 0 then f.fLower / 10
    else kw.momega0 / lib.pi / (10 * lib.mtsun)) = fl at h1
  have hfl' : fl = if kw.momega0 = 0 then f.fLower / 10 else kw.momega0 / (lib.pi * (10 * lib.mtsun)) := by
    rw [← hfl]
    have hiff : kw.momega0 / lib.pi / (10 * lib.mtsun) = 0 ↔ kw.momega0 = 0 := by
      rw [div_eq_zero_iff, div_eq_zero_iff]
      simp [hpi, hMT]
    simp only [hiff]
    split
    · rfl
    · rw [div_div]
  split at h1
  · cases h1
  next hm =>
  push Not at hm
  obtain ⟨l, g2, h1⟩ := bind_ok h1
  obtain ⟨h22, g3, h1⟩ := bind_ok h1
  obtain ⟨amp, g4, h1⟩ := bind_ok h1
  obtain ⟨peak, g5, h1⟩ := bind_ok h1
  obtain ⟨⟨t', modes'⟩, g6, h1⟩ := bind_ok h1
  cases h1
  obtain ⟨v, hv⟩ := peak_at_zero g5
  obtain ⟨k, _, _, _, _, e2, e3, _⟩ := C60_modes g6
  have hq : f.m1 * 10 / (f.m1 + f.m2) * lib.msun / (f.m2 * 10 / (f.m1 + f.m2) * lib.msun) = f.m1 / f.m2 := by
    have := hm.1
    have := hm.2
    field_simp
  refine ⟨f, l, _, _, peak.1, k, g1, ?_, fun lm => lvcnrModes_get _ l lm, ?_, ⟨amp, v, g4, hv⟩, e2, ?_, ?_, ?_, ?_⟩
  · rw [← g2, hfl']
    congr 1 <;> ring
  · intro i x hx
    rw [List.getElem?_map, List.getElem?_map] at hx
    obtain ⟨y, hy, rfl⟩ := Option.map_eq_some_iff.mp hx
    obtain ⟨n, hn, rfl⟩ := Option.map_eq_some_iff.mp hy
    obtain ⟨hlt, hn⟩ := List.getElem?_eq_some_iff.mp hn
    rw [List.getElem_range] at hn
    subst hn
    rw [← mul_assoc, mul_div_assoc _ ((10 : K) * lib.mtsun), div_self hMT, mul_one]
  · intro lm
    exact (congrArg (fun d => Dict.get? d lm) e3).trans (get?_mapVal _ _ _)
  · rw [h2]
    congr 2
    simp only [LvcnrParams.mk.injEq, and_true]
    exact hq
  · cases hz : kw.includeZeroEcc with
    | false => rw [h3 hz]; rfl
    | true =>
      obtain ⟨z, hz', _⟩ := h4 hz
      rw [hz']
      rfl
  · intro z hz
    cases hi : kw.includeZeroEcc with
    | false => rw [h3 hi] at hz; cases hz
    | true =>
      obtain ⟨z', hz', h5⟩ := h4 hi
      cases hz.symm.trans hz'
      rw [← hq]
      exact h5

/-- **C97 fails** for LVCNR files whose mean anomaly is not a number: asking for the circular waveform never succeeds. -/
theorem C97_lvcnr_anomaly_violation {fuel : ℕ} {lib : FileLib K C} {kw : LvcnrKw K} {f : LvcnrFile K}
    (hf : lib.lvcnr kw.filepath = .ok f) (hm : f.meanAno = none) (hz : kw.includeZeroEcc = true)
    (r : Wave K C × Option (LvcnrParams K)) : loadLvcnr fuel lib kw ≠ some (.ok r) := by
  intro h
  unfold loadLvcnr at h
  obtain ⟨p, h1, _, _, h4⟩ := lvcnrFinish_ok (w := r.1) (params := r.2) h
  obtain ⟨z, _, h5⟩ := h4 hz
  refine C61_mean_anomaly_violation ?_ _ h5
  unfold lvcnrRead at h1
  dsimp only at h1
  rw [hf, ok_bind] at h1
  split at h1
  · cases h1
  obtain ⟨l, g2, h1⟩ := bind_ok h1
  obtain ⟨h22, g3, h1⟩ := bind_ok h1
  obtain ⟨amp, g4, h1⟩ := bind_ok h1
  obtain ⟨peak, g5, h1⟩ := bind_ok h1
  obtain ⟨⟨t', modes'⟩, g6, h1⟩ := bind_ok h1
  cases h1
  exact hm

/-- **C97, LVCNR without LALSimulation.**  The times are spaced by `deltaTOverM`, lie between the first and last times of both the
amplitude and the phase, and start, before the junk is cut, at the later of the first times; the mode is made from the two
interpolated to them. -/
theorem C97_lvcnr_hack {fuel : ℕ} {lib : FileLib K C} {kw : LvcnrKw K} {w : Wave K C} {params : Option (LvcnrParams K)}
    (hd : 0 < kw.deltaTOverM) (h : loadLvcnrHack fuel lib kw = some (.ok (w, params))) :
    ∃ (f : LvcnrFile K) (T amp phase : List K) (k : ℕ) (a0 p0 a1 p1 : K), lib.lvcnr kw.filepath = .ok f ∧
      f.amp.1[0]? = some a0 ∧ f.phase.1[0]? = some p0 ∧ f.amp.1.getLast? = some a1 ∧ f.phase.1.getLast? = some p1 ∧
      (∀ (i : ℕ) (x : K), T[i]? = some x ↔ x = max a0 p0 + i * kw.deltaTOverM ∧ x < min a1 p1) ∧
      (∀ x ∈ T, a0 ≤ x ∧ x ≤ a1 ∧ p0 ≤ x ∧ x ≤ p1) ∧
      lib.interp T f.amp.1 f.amp.2 = .ok amp ∧ lib.interp T f.phase.1 f.phase.2 = .ok phase ∧
      w.t = T.drop k ∧ w.hlm = [((2, 2), (List.zipWith lib.polar amp phase).drop k)] ∧
      params = (if kw.includeParams then some ⟨f.m1 / f.m2, f.chi1, f.chi2, f.ecc, f.meanAno⟩ else none) ∧
      w.zeroecc.isSome = kw.includeZeroEcc ∧ ∀ z, w.zeroecc = some z → ∃ anomaly,
        zeroeccForNr fuel lib.toLoadLib w.t w.hlm ⟨kw.approximant, f.m1 / f.m2, f.chi1, f.chi2, some anomaly⟩ = some (.ok z) := by
  unfold loadLvcnrHack at h
  obtain ⟨p, h1, h2, h3, h4⟩ := lvcnrFinish_ok h
  unfold lvcnrHackRead at h1
  obtain ⟨f, g1, h1⟩ := bind_ok h1
  obtain ⟨a0, g2, h1⟩ := bind_ok h1
  obtain ⟨p0, g3, h1⟩ := bind_ok h1
  obtain ⟨a1, g4, h1⟩ := bind_ok h1
  obtain ⟨p1, g5, h1⟩ := bind_ok h1
  obtain ⟨T, g6, h1⟩ := bind_ok h1
  obtain ⟨amp, g7, h1⟩ := bind_ok h1
  obtain ⟨phase, g8, h1⟩ := bind_ok h1
  obtain ⟨⟨t', modes'⟩, g9, h1⟩ := bind_ok h1
  dsimp only at h1
  split at h1
  · cases h1
  cases h1
  have hl : ∀ {l : List K} {b : K}, (match l.getLast? with
      | some b => .ok b
      | none => .error .indexError : Py K) = .ok b → l.getLast? = some b := by
    intro l b h
    split at h
    · rename_i b' hb'
      cases h
      exact hb'
    · cases h
  obtain ⟨k, _, _, _, _, e2, e3, _⟩ := C60_modes g9
  refine ⟨f, T, amp, phase, k, a0, p0, a1, p1, g1, pyGet_getElem? g2, pyGet_getElem? g3, hl g4, hl g5, arange_mem hd g6, ?_, g7, g8, e2, e3,
    h2, ?_, ?_⟩
  · intro x hx
    obtain ⟨i, hi⟩ := List.mem_iff_getElem?.mp hx
    obtain ⟨rfl, hlt⟩ := (arange_mem hd g6 i x).mp hi
    have h0 : 0 ≤ (i : K) * kw.deltaTOverM := by positivity
    have := lt_min_iff.mp hlt
    exact ⟨le_trans (le_max_left a0 p0) (by linarith), this.1.le, le_trans (le_max_right a0 p0) (by linarith), this.2.le⟩
  · cases hz : kw.includeZeroEcc with
    | false => rw [h3 hz]; rfl
    | true =>
      obtain ⟨z, hz', _⟩ := h4 hz
      rw [hz']
      rfl
  · intro z hz
    cases hi : kw.includeZeroEcc with
    | false => rw [h3 hi] at hz; cases hz
    | true =>
      obtain ⟨z', hz', h5⟩ := h4 hi
      cases hz.symm.trans hz'
      exact ⟨_, h5⟩

end

namespace FilesDemo

/-- Rows with a peak at time 10 and one more sample at the start of the file of eccentricities. -/
def rows : List (ℚ × ℚ × ℚ) := (List.range 14).map fun (k : ℕ) => ((k : ℚ), 100 - ((k : ℚ) - 10) ^ 2, 0)

def file : LvcnrFile ℚ :=
  { m1 := 2, m2 := 1, fLower := 7, chi1 := [0, 0, 0], chi2 := [0, 0, 0], ecc := some (1 / 10), meanAno := some 0,
    amp := ([0, 1, 2, 3, 4], [5, 6, 7, 8, 7]), phase := ([1, 2, 3, 4, 5], [0, 10, 20, 30, 40]) }

def flib : FileLib ℚ ℚ :=
  { Demo.lib with
    complex := fun a b => a + b
    modulus := fun x => |x|
    angles := fun l => l.map fun _ => 0
    polar := fun a _ => a
    sqrtTwoPi := 5 / 2
    interp := fun x _ y => .ok (x.map fun a => a + y.length)
    emri := fun p => if p = "d/x_e0.1.h5".toList ∨ p = "d/x_e0.000.h5".toList then .ok rows else .error .exception
    emriEcc := fun p => if p = "d/x_e0.1_ecc.h5".toList then .ok ((List.range 14).map fun (k : ℕ) => 1 / ((k : ℚ) + 2)) else .error .exception
    eob := fun _ => .ok (rows.map fun r => r.1, rows.map fun r => r.2.1)
    lvcnr := fun _ => .ok file
    nrModes := fun _ _ _ _ _ _ _ _ => .ok [((2, 2), rows.map fun r => r.2.1), ((2, 1), rows.map fun r => r.2.1)] }

def ekw : EmriKw ℚ := ⟨some "d/x_e0.1.h5".toList, true, none, some (-2), some 1, none, true⟩

/-- Three samples, the eccentricities of the same rows, and the circular waveform of the file next to it. -/
example : (loadEmri flib ekw).toOption.map (fun w => (w.t, w.h22, w.geodesic)) =
      some ([-2, -1, 0], [96, 99, 100], some [1 / 10, 1 / 11, 1 / 12]) ∧
    (loadEmri flib ekw).toOption.map (fun w => w.zeroecc.map fun z => (z.1.length, z.2.take 2)) = some (some (13, [0, 38 / 5])) := by
  decide +kernel

/-- The same on a grid of step 3/4. -/
example : (loadEmri flib { ekw with deltaT := some (3 / 4) }).toOption.map (fun w => (w.t, w.h22, w.geodesic)) =
    some ([-2, -5 / 4, -1 / 2], [1, 7 / 4, 5 / 2], some [1, 7 / 4, 5 / 2]) := by decide +kernel

/-- The path of the circular waveform: next to the file, or not. -/
example : partnerPath "d/x_e0.1.h5".toList = "d/x_e0.000.h5".toList ∧
    partnerPath "/home/charlie01/x_e0.1.h5".toList = "/home/charlie0.000.h5".toList ∧
    partnerPath "d/x_ecc1.5.h5".toList = "d/x_ecc1.5.he0.000.h5".toList := by decide +kernel

example : "e0".toList <:+: "/home/charlie01".toList := by decide +kernel

example : ¬ "e0".toList <:+: "d".toList ++ '/' :: "x_".toList ++ ['e'] := by decide +kernel

/-- Times relative to the merger. -/
example : (loadEob flib (some "EccTest.h5".toList) (some "zero.h5".toList) true).toOption.map (fun w => (w.t.take 2, w.zeroecc.map fun z => z.1.take 2)) =
    some ([-10, -9], some [-10, -9]) := by decide +kernel

def lkw : LvcnrKw ℚ := ⟨"x.h5".toList, 1 / 10, 0, false, true, "X", 0⟩

example : (loadLvcnr 5 flib lkw).map (fun r => r.toOption.map fun v => (v.1.t.take 2, v.1.hlm.map (·.1))) =
      some (some ([-1, -9 / 10], [(2, 2), (2, 1)])) ∧
    (loadLvcnr 5 flib lkw).map (fun r => r.toOption.map fun v => v.2) =
      some (some (some ⟨2, [0, 0, 0], [0, 0, 0], some (1 / 10), some 0⟩)) := by decide +kernel

/-- From 1, where the phase starts, to before 4, where the amplitude ends. -/
example : (loadLvcnrHack 5 flib { lkw with deltaTOverM := 1 }).map (fun r => r.toOption.map fun v => (v.1.t, v.1.hlm)) =
    some (some ([1, 2, 3], [((2, 2), [6, 7, 8])])) := by decide +kernel

example : flib.pi ≠ 0 ∧ flib.mtsun ≠ 0 ∧ flib.msun ≠ 0 := by decide +kernel

end FilesDemo

end GwEcc.Load
