import Verif.Spec.DataDict
import Verif.Lemmas.DataDict
import Verif.Lemmas.Utils
import Mathlib.Tactic.Linarith
import Mathlib.Tactic.Ring

/-! Lemmas about `processData`: contents of the modes, analysis and cut. -/

set_option linter.unusedSectionVars false

namespace GwEcc

open Spec

section
variable {K C : Type} [Field K] [LinearOrder K]

/-! ### Modes -/

theorem getR_realMode {v : DataV K C} {key : String} {d : Dict LM (List K)} (h : getR v key = .ok d) (k : LM) :
    realMode v key k = d.get? k := by
  unfold realMode
  rw [getR_ok h]; rfl

theorem realMode_of {v : DataV K C} {key : String} {d : Dict LM (List K)} (h : v.get? key = some (.modesR d)) (k : LM) :
    realMode v key k = d.get? k := by
  unfold realMode
  rw [h]; rfl

theorem complexMode_of {v : DataV K C} {key : String} {d : Dict LM (List C)} (h : v.get? key = some (.modesC d)) (k : LM) :
    complexMode v key k = d.get? k := by
  unfold complexMode
  rw [h]; rfl

theorem get?_map {κ V W : Type} [DecidableEq κ] (f : V → W) (d : Dict κ V) (k : κ) :
    Dict.get? (d.map (fun p => (p.1, f p.2))) k = (d.get? k).map f := by
  induction d with
  | nil => rfl
  | cons p d ih =>
    rw [List.map_cons, Dict.get?_cons, Dict.get?_cons, ih]
    split <;> rfl

theorem keys_map {κ V W : Type} (f : V → W) (d : Dict κ V) : Dict.keys (d.map (fun p => (p.1, f p.2))) = d.keys := by
  simp [Dict.keys]

/-- The modes obtained for one name and suffix. -/
theorem realModes_spec (conv : List C → List K) {name suffix : String} {v : DataV K C} (hp : ProperDicts v)
    {d : Dict LM (List K)} (h : realModes conv name suffix v = .ok d) :
    (v.has (name ++ suffix) = true ∧ v.get? (name ++ suffix) = some (.modesR d) ∧ d.keys.Nodup) ∨
    (v.has (name ++ suffix) = false ∧ ∃ c, v.get? ("hlm" ++ suffix) = some (.modesC c) ∧ c.keys.Nodup ∧
      d = c.map (fun p => (p.1, conv p.2))) ∨
    (v.has (name ++ suffix) = false ∧ v.has ("hlm" ++ suffix) = false ∧ suffix ≠ "" ∧ d = []) := by
  unfold realModes at h
  split at h
  · rename_i h1
    obtain ⟨e, he, h⟩ := bind_ok h
    cases h
    have hn := (hp _ _ (getR_ok he)).1 _ rfl
    rw [Dict.update_nil _ hn]
    exact Or.inl ⟨h1, getR_ok he, hn⟩
  · rename_i h1
    have h1 : v.has (name ++ suffix) = false := by simpa using h1
    split at h
    · obtain ⟨e, he, h⟩ := bind_ok h
      cases h
      have hn := (hp _ _ (getC_ok he)).2 _ rfl
      refine Or.inr (Or.inl ⟨h1, e, getC_ok he, hn, ?_⟩)
      rw [foldl_set_nodup conv e [] hn (by simp [Dict.keys])]; simp
    · rename_i h2
      split at h
      · cases h
      · rename_i h3
        cases h
        exact Or.inr (Or.inr ⟨h1, by simpa using h2, h3, rfl⟩)

theorem omegaModes_loop (t : List K) : ∀ (e acc w : Dict LM (List K)), e.keys.Nodup →
    e.foldlM (fun acc p => do
      let t1 ← pyGet t 1
      let t0 ← pyGet t 0
      let w ← timeDeriv4 p.2 (t1 - t0)
      pure (acc.set p.1 w)) acc = .ok w →
    ∀ k, (e.get? k = none ∧ w.get? k = acc.get? k) ∨
      ∃ φ r t0 t1, e.get? k = some φ ∧ w.get? k = some r ∧ t[0]? = some t0 ∧ t[1]? = some t1 ∧
        timeDeriv4 φ (t1 - t0) = .ok r
  | [], acc, w, _, h, k => by cases h; exact Or.inl ⟨rfl, rfl⟩
  | p :: e, acc, w, hn, h, k => by
    rw [List.foldlM_cons] at h
    obtain ⟨acc', h1, h⟩ := bind_ok h
    obtain ⟨t1, ht1, h1⟩ := bind_ok h1
    obtain ⟨t0, ht0, h1⟩ := bind_ok h1
    obtain ⟨r, hr, h1⟩ := bind_ok h1
    cases h1
    simp only [Dict.keys, List.map_cons, List.nodup_cons] at hn
    rw [Dict.get?_cons]
    have g1 : t[1]? = some t1 := by obtain ⟨h, e⟩ := pyGet_ok ht1; rw [List.getElem?_eq_getElem h, e]
    have g0 : t[0]? = some t0 := by obtain ⟨h, e⟩ := pyGet_ok ht0; rw [List.getElem?_eq_getElem h, e]
    rcases omegaModes_loop t e _ w hn.2 h k with ⟨h3, h4⟩ | ⟨φ, r', s0, s1, h3, h4, h5, h6, h7⟩
    · rw [Dict.get?_set] at h4
      by_cases hk : k = p.1
      · rw [if_pos hk] at h4 ⊢
        exact Or.inr ⟨p.2, r, t0, t1, rfl, h4, g0, g1, hr⟩
      · rw [if_neg hk] at h4 ⊢
        exact Or.inl ⟨h3, h4⟩
    · have hk : k ≠ p.1 := by
        rintro rfl
        exact hn.1 ((Dict.has_iff e _).mp ((Dict.has_iff_get? _ _).mpr ⟨φ, h3⟩))
      rw [if_neg hk]
      exact Or.inr ⟨φ, r', s0, s1, h3, h4, h5, h6, h7⟩

/-- The frequencies are the derivatives of the phases, mode by mode. -/
theorem omegaModes_spec {t : List K} {d w : Dict LM (List K)} (hn : d.keys.Nodup) (h : omegaModes t d = .ok w) (k : LM) :
    (d.get? k = none ∧ w.get? k = none) ∨
      ∃ φ r t0 t1, d.get? k = some φ ∧ w.get? k = some r ∧ t[0]? = some t0 ∧ t[1]? = some t1 ∧
        timeDeriv4 φ (t1 - t0) = .ok r := by
  rcases omegaModes_loop t d d w hn h k with ⟨h1, h2⟩ | h
  · exact Or.inl ⟨h1, h2.trans h1⟩
  · exact Or.inr h

theorem omegaModes_ok {t : List K} (ht : 2 ≤ t.length) : ∀ (e acc : Dict LM (List K)), (∀ p ∈ e, 5 ≤ p.2.length) →
    ∃ w, e.foldlM (fun acc p => do
      let t1 ← pyGet t 1
      let t0 ← pyGet t 0
      let w ← timeDeriv4 p.2 (t1 - t0)
      pure (acc.set p.1 w)) acc = (.ok w : Py (Dict LM (List K)))
  | [], acc, _ => ⟨acc, rfl⟩
  | p :: e, acc, h => by
    have h5 : ¬ p.2.length < 5 := by have := h p (by simp); omega
    have hd : ∀ dt : K, ∃ r, timeDeriv4 p.2 dt = .ok r := by
      intro dt; unfold timeDeriv4; rw [if_neg h5]; exact ⟨_, rfl⟩
    obtain ⟨r, hr⟩ := hd (t[1] - t[0])
    have ih := omegaModes_ok ht e (acc.set p.1 r) (fun q hq => h q (by simp [hq]))
    rw [pyGet_of_lt (by omega : 1 < t.length), pyGet_of_lt (by omega : 0 < t.length)] at ih ⊢
    rw [List.foldlM_cons]
    simp only [ok_bind, hr, pure_eq_ok] at ih ⊢
    exact ih

/-! ### Cut -/

theorem cutData_ok {idx : ℕ} {nd nd' : DataV K C} (h : cutData idx nd = .ok nd') {a p : Dict LM (List K)}
    (ha : nd.get? "amplm" = some (.modesR a)) (hp : nd.get? "phaselm" = some (.modesR p)) :
    ∃ w w' t, nd.get? "omegalm" = some w ∧ cutEntry idx w = .ok w' ∧ nd.get? "t" = some (.arr t) ∧
      ∀ key, nd'.get? key =
        if key = "t" then some (.arr (t.take idx))
        else if key = "omegalm" then some w'
        else if key = "phaselm" then some (.modesR (p.map (fun q => (q.1, q.2.take idx))))
        else if key = "amplm" then some (.modesR (a.map (fun q => (q.1, q.2.take idx))))
        else nd.get? key := by
  unfold cutData at h
  rw [getItem_of ha] at h
  simp only [ok_bind, cutEntry] at h
  obtain ⟨p', hp', h⟩ := bind_ok h
  have hp' := getItem_ok hp'
  rw [Dict.get?_set, if_neg (by decide), hp] at hp'
  cases hp'
  simp only [ok_bind] at h
  obtain ⟨w, hw, h⟩ := bind_ok h
  obtain ⟨w', hw', h⟩ := bind_ok h
  obtain ⟨t, ht, h⟩ := bind_ok h
  cases h
  have hw := getItem_ok hw
  rw [Dict.get?_set, if_neg (by decide), Dict.get?_set, if_neg (by decide)] at hw
  have ht := getArr_ok ht
  rw [Dict.get?_set, if_neg (by decide), Dict.get?_set, if_neg (by decide), Dict.get?_set, if_neg (by decide)] at ht
  exact ⟨w, w', t, hw, hw', ht, fun key => by simp only [Dict.get?_set]⟩

end

section
variable {K C : Type} [Field K] [LinearOrder K] [FloorRing K]

/-- Everything `analyse` computes on the way. -/
structure AnalyseSpec (lib : WaveLib K C) (pr : Bool) (nd : DataV K C) (n : Option K) (r : Analysis K) : Prop where
  parts : ∃ (t : List K) (total : List K) (a : Dict LM (List K)) (x : K) (mi : ℕ) (amp phase omega : List K) (pm om p0 : K),
    nd.get? "t" = some (.arr t) ∧ nd.get? "amplm" = some (.modesR a) ∧ lib.totalAmp (a.map Prod.snd) = .ok total ∧
    peakTime t total = .ok (r.tMerger, x) ∧ argmin (t.map (fun x => |x - r.tMerger|)) = .ok mi ∧
    gwQuantities pr nd "" = .ok (amp, phase, omega) ∧ pyGet amp mi = .ok r.ampMerger ∧ pyGet phase mi = .ok pm ∧
    pyGet omega mi = .ok om ∧ pyGet phase 0 = .ok p0 ∧ p0 ≤ pm ∧ 0 ≤ om ∧
    peakWidth lib.pi t phase pm = .ok r.width ∧
    ((n = none ∧ r.cut = none) ∨ ∃ m idx, n = some m ∧ 0 ≤ m ∧ indexBeforeMerger lib.pi phase pm m = .ok idx ∧
      r.cut = some idx)

theorem analyse_spec {lib : WaveLib K C} {pr : Bool} {nd : DataV K C} {n : Option K} {r : Analysis K}
    (h : analyse lib pr nd n = .ok r) : AnalyseSpec lib pr nd n r := by
  constructor
  unfold analyse at h
  obtain ⟨t, ht, h⟩ := bind_ok h
  obtain ⟨a, ha, h⟩ := bind_ok h
  obtain ⟨total, htot, h⟩ := bind_ok h
  obtain ⟨⟨tm, x⟩, hpk, h⟩ := bind_ok h
  obtain ⟨mi, hmi, h⟩ := bind_ok h
  obtain ⟨⟨amp, phase, omega⟩, hgw, h⟩ := bind_ok h
  obtain ⟨am, ham, h⟩ := bind_ok h
  obtain ⟨pm, hpm, h⟩ := bind_ok h
  obtain ⟨om, hom, h⟩ := bind_ok h
  obtain ⟨p0, hp0, h⟩ := bind_ok h
  split at h
  · cases h
  rename_i h1
  split at h
  · cases h
  rename_i h2
  obtain ⟨w, hw, h⟩ := bind_ok h
  cases n with
  | none =>
    cases h
    exact ⟨t, total, a, x, mi, amp, phase, omega, pm, om, p0, getArr_ok ht, getR_ok ha, htot, hpk, hmi, hgw, ham, hpm,
      hom, hp0, le_of_not_gt h1, le_of_not_gt h2, hw, Or.inl ⟨rfl, rfl⟩⟩
  | some m =>
    simp only at h
    split at h
    · cases h
    rename_i h3
    obtain ⟨idx, hidx, h⟩ := bind_ok h
    cases h
    exact ⟨t, total, a, x, mi, amp, phase, omega, pm, om, p0, getArr_ok ht, getR_ok ha, htot, hpk, hmi, hgw, ham, hpm,
      hom, hp0, le_of_not_gt h1, le_of_not_gt h2, hw, Or.inr ⟨m, idx, rfl, le_of_not_gt h3, hidx, rfl⟩⟩

/-- Conversely, the parts determine the result. -/
theorem analyse_of {lib : WaveLib K C} {pr : Bool} {nd : DataV K C} {r : Analysis K}
    {t total : List K} {a : Dict LM (List K)} {x : K} {mi : ℕ} {amp phase omega : List K} {tm am pm om p0 : K} {w : ℤ}
    (ht : nd.get? "t" = some (.arr t)) (ha : nd.get? "amplm" = some (.modesR a))
    (htot : lib.totalAmp (a.map Prod.snd) = .ok total) (hpk : peakTime t total = .ok (tm, x))
    (hmi : argmin (t.map (fun x => |x - tm|)) = .ok mi) (hgw : gwQuantities pr nd "" = .ok (amp, phase, omega))
    (ham : pyGet amp mi = .ok am) (hpm : pyGet phase mi = .ok pm) (hom : pyGet omega mi = .ok om)
    (hp0 : pyGet phase 0 = .ok p0) (h1 : p0 ≤ pm) (h2 : 0 ≤ om) (hw : peakWidth lib.pi t phase pm = .ok w) (n : Option K) :
    analyse lib pr nd n = (match n with
      | none => .ok ⟨tm, am, w, none⟩
      | some m => if m < 0 then .error .valueError else do
        let idx ← indexBeforeMerger lib.pi phase pm m
        pure ⟨tm, am, w, some idx⟩) := by
  unfold analyse
  rw [getArr_of ht, getR_of ha]
  simp only [ok_bind]
  rw [htot]
  simp only [ok_bind]
  rw [hpk]
  simp only [ok_bind]
  rw [hmi, hgw]
  simp only [ok_bind]
  rw [ham, hpm, hom, hp0]
  simp only [ok_bind]
  rw [if_neg (not_lt.mpr h1), if_neg (not_lt.mpr h2), hw]
  simp only [ok_bind]
  cases n <;> rfl

/-- Decomposition of a successful run. -/
theorem processData_ok {lib : WaveLib K C} {pr : Flag} {frame : String} {v nd : DataV K C} {n : Option K} {r : Analysis K}
    (h : processData lib pr frame v n = .ok (nd, r)) :
    ∃ v' full, checkShape v.has = .ok () ∧ (if mustTransform pr frame then toCoprecessing lib v else pure v) = .ok v' ∧
      newData lib v' = .ok full ∧ analyse lib pr.truth full n = .ok r ∧
      ((r.cut = none ∧ nd = full) ∨ ∃ idx, r.cut = some idx ∧ cutData idx full = .ok nd) := by
  unfold processData at h
  obtain ⟨_, h1, h⟩ := bind_ok h
  obtain ⟨v', h2, h⟩ := bind_ok h
  obtain ⟨full, h3, h⟩ := bind_ok h
  obtain ⟨r', h4, h⟩ := bind_ok h
  refine ⟨v', full, h1, h2, h3, ?_⟩
  split at h
  · rename_i hc
    cases h
    exact ⟨h4, Or.inl ⟨hc, rfl⟩⟩
  · rename_i idx hc
    obtain ⟨nd', h5, h⟩ := bind_ok h
    cases h
    exact ⟨h4, Or.inr ⟨idx, hc, h5⟩⟩

end

/-! ### Samples before merger -/

section
variable {K : Type} [Field K] [LinearOrder K] [IsStrictOrderedRing K]

theorem argmin_abs_nearest {phase : List K} {target : K} {i : ℕ} (h : argmin (phase.map (fun x => |x - target|)) = .ok i) :
    NearestSample phase target i := by
  obtain ⟨hi, h1, h2⟩ := argmin_spec h
  rw [List.length_map] at hi
  refine ⟨hi, fun j hj => ?_, fun j hj hlt => ?_⟩
  · have := h1 j (by rw [List.length_map]; exact hj)
    rwa [List.getElem_map, List.getElem_map] at this
  · have := h2 j (by rw [List.length_map]; exact hj) hlt
    rwa [List.getElem_map, List.getElem_map] at this

theorem indexBeforeMerger_ok {pi : K} {phase : List K} {pm n : K} {i : ℕ} (h : indexBeforeMerger pi phase pm n = .ok i) :
    NearestSample phase (pm - 4 * pi * n) i ∧ ∃ p0, phase[0]? = some p0 ∧ p0 ≤ pm - 4 * pi * n := by
  unfold indexBeforeMerger at h
  obtain ⟨p0, h0, h⟩ := bind_ok h
  split at h
  · cases h
  rename_i h1
  refine ⟨argmin_abs_nearest h, p0, ?_, le_of_not_gt h1⟩
  obtain ⟨hl, e⟩ := pyGet_ok h0
  rw [List.getElem?_eq_getElem hl, e]

/-- The nearest sample to a larger phase is not earlier, for phases that do not decrease. -/
theorem NearestSample.mono {phase : List K} (hp : phase.Pairwise (· ≤ ·)) {a b : K} (hab : a ≤ b) {i j : ℕ}
    (hi : NearestSample phase a i) (hj : NearestSample phase b j) : i ≤ j := by
  by_contra hlt
  push Not at hlt
  obtain ⟨hil, _, hi2⟩ := hi
  obtain ⟨hjl, hj1, _⟩ := hj
  have e1 := hi2 j hjl hlt
  have e2 := hj1 i hil
  have hle : phase[j] ≤ phase[i] := List.pairwise_iff_getElem.mp hp j i hjl hil hlt
  rcases abs_cases (phase[i] - a) with ⟨q1, _⟩ | ⟨q1, _⟩ <;> rcases abs_cases (phase[j] - a) with ⟨q2, _⟩ | ⟨q2, _⟩ <;>
    rcases abs_cases (phase[i] - b) with ⟨q3, _⟩ | ⟨q3, _⟩ <;> rcases abs_cases (phase[j] - b) with ⟨q4, _⟩ | ⟨q4, _⟩ <;>
    rw [q1, q2] at e1 <;> rw [q3, q4] at e2 <;> linarith

theorem pyInt_nonneg [FloorRing K] {x : K} (h : 0 ≤ x) : 0 ≤ pyInt x := by
  unfold pyInt
  rw [if_pos h]
  exact Int.floor_nonneg.mpr h

end

end GwEcc
