import Verif.Props.DataDict

/-!
# C19 (continued) and C48: precessing systems

Cases that meet the premises of the theorems are in `Props/DataDemo`.
-/

set_option linter.unusedSectionVars false

namespace GwEcc

open Spec

section C19
variable {K C : Type} [Field K] [LinearOrder K] [IsStrictOrderedRing K] [FloorRing K]

/-- With or without excluded orbits, the quantities the measurement uses for a system with nonprecessing symmetry are the
(2,2) mode of the data it keeps. -/
theorem C19_results (lib : WaveLib K C) (pr : Flag) (frame : String) (v nd : DataV K C) (n : Option K) (r : Analysis K)
    (hp : ProperDicts v) (hs : NonprecessingSymmetry lib v) (hf : pr ≠ .isTrue ∨ frame ≠ "inertial")
    (h : processData lib pr frame v n = .ok (nd, r)) :
    ∃ A P W, gwQuantities pr.truth nd "" = .ok (A, P, W) ∧ realMode nd "amplm" (2, 2) = some A ∧
      realMode nd "phaselm" (2, 2) = some P ∧ realMode nd "omegalm" (2, 2) = some W := by
  have hm : mustTransform pr frame = false := by
    unfold mustTransform; rcases hf with hf | hf <;> simp [hf]
  have hfull : ∀ full r, processData lib pr frame v none = .ok (full, r) →
      ∃ A P W, realMode full "amplm" (2, 2) = some A ∧ realMode full "amplm" (2, -2) = some A ∧
      realMode full "phaselm" (2, 2) = some P ∧ realMode full "phaselm" (2, -2) = some (P.map (- ·)) ∧
      realMode full "omegalm" (2, 2) = some W ∧ realMode full "omegalm" (2, -2) = some (W.map (- ·)) := by
    intro full r h0
    obtain ⟨v', full', h1, h2, h3, h4, h5⟩ := processData_ok h0
    rw [hm] at h2
    cases h2
    have hc := (C20_none lib pr frame v full r hp h0).1
    rcases h5 with ⟨_, rfl⟩ | ⟨idx, h5, _⟩
    · exact newData_symmetric hp h3 hs
    · rw [hc] at h5; cases h5
  have fin : ∀ {d : DataV K C} {A P W : List K}, realMode d "amplm" (2, 2) = some A → realMode d "amplm" (2, -2) = some A →
      realMode d "phaselm" (2, 2) = some P → realMode d "phaselm" (2, -2) = some (P.map (- ·)) →
      realMode d "omegalm" (2, 2) = some W → realMode d "omegalm" (2, -2) = some (W.map (- ·)) →
      gwQuantities pr.truth d "" = .ok (A, P, W) := by
    intro d A P W a1 a2 a3 a4 a5 a6
    obtain ⟨q1, q2⟩ := C19_quantities d "" A P W a1 a2 a3 a4 a5 a6
    cases pr.truth
    · exact q2
    · exact q1
  cases n with
  | none =>
    obtain ⟨A, P, W, a1, a2, a3, a4, a5, a6⟩ := hfull nd r h
    exact ⟨A, P, W, fin a1 a2 a3 a4 a5 a6, a1, a3, a5⟩
  | some n =>
    obtain ⟨full, phase, pm, e1, e2⟩ := C20_cut_applies lib pr frame v nd r n h
    have c := C20_cut lib pr frame v full _ n phase pm e1 e2
    have hok : (∃ p0, phase[0]? = some p0 ∧ p0 ≤ pm - 4 * lib.pi * n) ∧ 0 ≤ n := by
      by_contra hno
      obtain ⟨err, he⟩ := c.2 hno
      rw [h] at he; cases he
    obtain ⟨nd1, idx, f1, f2, f3, f4, _⟩ := c.1 hok
    rw [h] at f1
    simp only [Except.ok.injEq, Prod.mk.injEq] at f1
    obtain ⟨rfl, _⟩ := f1
    obtain ⟨A, P, W, a1, a2, a3, a4, a5, a6⟩ := hfull full _ e1
    have g1 := f4 "amplm" (by simp) (2, 2)
    have g2 := f4 "amplm" (by simp) (2, -2)
    have g3 := f4 "phaselm" (by simp) (2, 2)
    have g4 := f4 "phaselm" (by simp) (2, -2)
    have g5 := f4 "omegalm" (by simp) (2, 2)
    have g6 := f4 "omegalm" (by simp) (2, -2)
    rw [a1] at g1
    rw [a2] at g2
    rw [a3] at g3
    rw [a4, Option.map_some, ← List.map_take] at g4
    rw [a5] at g5
    rw [a6, Option.map_some, ← List.map_take] at g6
    exact ⟨_, _, _, fin g1 g2 g3 g4 g5 g6, g1, g3, g5⟩

theorem coprecessing_needs {lib : WaveLib K C} {t : List K} {H R : Dict LM (List C)} (h : Coprecessing lib t H R) (m : ℤ)
    (hm : -2 ≤ m) (hm' : m ≤ 2) : ∃ x, H.get? (2, m) = some x := by
  obtain ⟨a, b, c, d, f, cols, h1, h2, h3, h4, h5, _⟩ := h
  obtain rfl | rfl | rfl | rfl | rfl : m = -2 ∨ m = -1 ∨ m = 0 ∨ m = 1 ∨ m = 2 := by omega
  · exact ⟨a, h1⟩
  · exact ⟨b, h2⟩
  · exact ⟨c, h3⟩
  · exact ⟨d, h4⟩
  · exact ⟨f, h5⟩

/-- Without a (2,-2) mode a precessing measurement raises, whatever the frame. -/
theorem C19_missing (lib : WaveLib K C) (pr : Flag) (frame : String) (v : DataV K C) (n : Option K) (hp : ProperDicts v)
    (hpr : pr.truth = true) (hno : ampMode lib v (2, -2) = none) : ∃ err, processData lib pr frame v n = .error err := by
  cases hr : processData lib pr frame v n with
  | error e => exact ⟨e, rfl⟩
  | ok x =>
    exfalso
    obtain ⟨nd, r⟩ := x
    obtain ⟨v', full, h1, h2, h3, h4, _⟩ := processData_ok hr
    split at h2
    · unfold toCoprecessing at h2
      obtain ⟨w, hw, _⟩ := bind_ok h2
      obtain ⟨R, ⟨g1, g2, _⟩ | ⟨g1, b, hb, g2, _⟩⟩ := transform_ok hw
      · obtain ⟨H, t, e1, _, e3⟩ := rotatedModes_ok g2
        obtain ⟨x, hx⟩ := coprecessing_needs e3 (-2) (by omega) (by omega)
        unfold ampMode at hno
        have hna : v.has "amplm" = false := by
          have := ((checkShape_iff _).mp h1).2.1
          have g1 : v.has "hlm" = true := g1
          cases hh : v.has "amplm"
          · rfl
          · exact absurd ⟨g1, Or.inl hh⟩ this
        have e1 : v.get? "hlm" = some (.modesC H) := e1
        rw [hna, if_neg (by simp), complexMode_of e1, hx] at hno
        cases hno
      · obtain ⟨H, t, e1, _, e3⟩ := rotatedModes_ok g2
        obtain ⟨x, hx⟩ := coprecessing_needs e3 (-2) (by omega) (by omega)
        have g1 : v.has "hlm" = false := g1
        obtain ⟨a, p, c, z, q, ha, _, _, _, _, hpol, hcase⟩ := builtModes_ok hp hb
        have e1 : (v.update b).get? "hlm" = some (.modesC H) := e1
        have hcH : c = H := by
          rcases hcase with ⟨_, hg⟩ | ⟨_, c0, _, _, hg⟩ <;> rw [hg] at e1 <;> simp at e1 <;> exact e1
        subst hcH
        have hA : ∃ A, a.get? (2, -2) = some A := by
          rcases hpol (2, -2) with ⟨_, e⟩ | ⟨A, _, _, e, _⟩
          · rw [hx] at e; cases e
          · exact ⟨A, e⟩
        obtain ⟨A, hA⟩ := hA
        unfold ampMode at hno
        rcases realModes_spec lib.abs hp ha with ⟨q1, q2, _⟩ | ⟨q1, cc, q2, _⟩ | ⟨_, _, q3, _⟩
        · have q2 : v.get? "amplm" = some (.modesR a) := q2
          have q1 : v.has "amplm" = true := q1
          rw [if_pos q1, realMode_of q2, hA] at hno
          cases hno
        · have q2 : v.get? "hlm" = some (.modesC cc) := q2
          rw [has_false_iff, q2] at g1
          cases g1
        · exact q3 rfl
    · cases h2
      have hc := (newData_contents hp h3 "" (Or.inl rfl) (2, -2)).2.1
      have hc : realMode full "amplm" (2, -2) = none := hc.trans hno
      obtain ⟨_, _, a, _, _, amp, phase, omega, _, _, _, _, _, _, _, _, g6, _⟩ := (analyse_spec h4).parts
      unfold gwQuantities at g6
      rw [hpr] at g6
      obtain ⟨a', ha', g6⟩ := bind_ok g6
      obtain ⟨p', _, g6⟩ := bind_ok g6
      have ha' : getR full "amplm" = .ok a' := ha'
      rw [getR_realMode ha', ← has_false_iff] at hc
      simp only [Bool.not_true, Bool.false_eq_true, if_false, hc, Bool.not_false, if_true] at g6
      cases g6

end C19

/-! ## C48 -/

section C48
variable {K C : Type} [Field K] [LinearOrder K] [IsStrictOrderedRing K] [FloorRing K]

/-- Data found under complex modes `R` only. -/
theorem newData_isDataOf {lib : WaveLib K C} {v nd : DataV K C} (hp : ProperDicts v) (h : newData lib v = .ok nd)
    (tag : String) (htag : tag = "" ∨ tag = "_zeroecc") {R : Dict LM (List C)} {t : List K}
    (hR : v.get? ("hlm" ++ tag) = some (.modesC R)) (ht : v.get? ("t" ++ tag) = some (.arr t))
    (ha : v.has ("amplm" ++ tag) = false) (hph : v.has ("phaselm" ++ tag) = false) (ho : v.has ("omegalm" ++ tag) = false) :
    IsDataOf lib nd tag t R := by
  intro k
  obtain ⟨_, c2, c3, _, c5⟩ := newData_contents hp h tag htag k
  rw [ha, if_neg (by simp), complexMode_of hR] at c2
  rw [hph, if_neg (by simp), complexMode_of hR] at c3
  refine ⟨c2, c3, fun w hw => ?_⟩
  obtain ⟨φ, t', t0, t1, e1, e2, e3, e4, e5⟩ := c5 ho w hw
  unfold Spec.array at e2
  rw [ht] at e2
  cases e2
  rw [c3] at e1
  cases hk : R.get? k with
  | none => rw [hk] at e1; cases e1
  | some hh =>
    rw [hk] at e1
    cases e1
    exact ⟨hh, t0, t1, rfl, e3, e4, e5⟩

/-- State of the dictionary once the eccentric modes are rotated. -/
theorem firstTransform {lib : WaveLib K C} {v w : DataV K C} (hp : ProperDicts v) (hs : checkShape v.has = .ok ())
    (h : transform lib v "" = .ok w) :
    ∃ H t R, Given lib v "" (fun k => H.get? k) ∧ v.get? "t" = some (.arr t) ∧ Coprecessing lib t H R ∧
      w.get? "hlm" = some (.modesC R) ∧ w.get? "t" = some (.arr t) ∧ w.get? "amplm" = none ∧ w.get? "phaselm" = none ∧
      w.get? "omegalm" = none ∧ R.keys.Nodup := by
  obtain ⟨sh1, sh2, _⟩ := (checkShape_iff _).mp hs
  obtain ⟨R, ⟨g1, g2, g3⟩ | ⟨g1, b, hb, g2, g3⟩⟩ := transform_ok h
  · obtain ⟨H, t, e1, e2, e3⟩ := rotatedModes_ok g2
    have g1 : v.has "hlm" = true := g1
    have na : v.get? "amplm" = none := by
      rw [← has_false_iff]
      cases hh : v.has "amplm"
      · rfl
      · exact absurd ⟨g1, Or.inl hh⟩ sh2
    have np : v.get? "phaselm" = none := by
      rw [← has_false_iff]
      cases hh : v.has "phaselm"
      · rfl
      · exact absurd ⟨g1, Or.inr hh⟩ sh2
    refine ⟨H, t, R, Or.inl ⟨H, e1, fun k => rfl⟩, e2, e3, ?_, ?_, ?_, ?_, ?_, rotatedModes_nodup g2⟩
    · rw [g3]; simp
    · rw [g3]; simpa using e2
    · rw [g3]; simpa using na
    · rw [g3]; simpa using np
    · rw [g3]; simp
  · obtain ⟨H, t, e1, e2, e3⟩ := rotatedModes_ok g2
    have g1 : v.get? "hlm" = none := (has_false_iff _ _).mp g1
    obtain ⟨a, p, c, z, q, ha, hph, _, _, _, hpol, hcase⟩ := builtModes_ok hp hb
    have e1 : (v.update b).get? "hlm" = some (.modesC H) := e1
    have e2 : (v.update b).get? "t" = some (.arr t) := e2
    have hg : c = H ∧ v.get? "t" = some (.arr t) := by
      rcases hcase with ⟨_, hg⟩ | ⟨_, c0, _, _, hg⟩ <;> rw [hg] at e1 e2 <;> simp at e1 e2 <;> exact ⟨e1, e2⟩
    obtain ⟨rfl, ht⟩ := hg
    have hag : v.get? "amplm" = some (.modesR a) := by
      rcases realModes_spec lib.abs hp ha with ⟨_, q2, _⟩ | ⟨_, cc, q2, _⟩ | ⟨_, _, q3, _⟩
      · exact q2
      · have q2 : v.get? "hlm" = some (.modesC cc) := q2
        rw [g1] at q2; cases q2
      · exact absurd rfl q3
    have hpg : v.get? "phaselm" = some (.modesR p) := by
      rcases realModes_spec lib.phase hp hph with ⟨_, q2, _⟩ | ⟨_, cc, q2, _⟩ | ⟨_, _, q3, _⟩
      · exact q2
      · have q2 : v.get? "hlm" = some (.modesC cc) := q2
        rw [g1] at q2; cases q2
      · exact absurd rfl q3
    refine ⟨c, t, R, Or.inr ⟨g1, a, p, c, hag, hpg, hpol, fun k => rfl⟩, ht, e3, ?_, ?_, ?_, ?_, ?_, rotatedModes_nodup g2⟩
    · rw [g3]; simp
    · rw [g3]; simpa using e2
    · rw [g3]; simp
    · rw [g3]; simp
    · rw [g3]; simp

/-- Decomposition of a run that transforms the modes. -/
theorem inertial_ok {lib : WaveLib K C} {v nd : DataV K C} {r : Analysis K} (hp : ProperDicts v)
    (h : processData lib .isTrue "inertial" v none = .ok (nd, r)) :
    ∃ w v', checkShape v.has = .ok () ∧ transform lib v "" = .ok w ∧ ProperDicts v' ∧ newData lib v' = .ok nd ∧
      (((w.has "hlm_zeroecc" || w.has "amplm_zeroecc") = true ∧ transform lib w "_zeroecc" = .ok v') ∨
        ((w.has "hlm_zeroecc" || w.has "amplm_zeroecc") = false ∧ v' = w)) := by
  obtain ⟨v', full, h1, h2, h3, h4, h5⟩ := processData_ok h
  have hc := (C20_none lib _ _ v nd r hp h).1
  have hnd : nd = full := by
    rcases h5 with ⟨_, rfl⟩ | ⟨idx, h5, _⟩
    · rfl
    · rw [hc] at h5; cases h5
  subst hnd
  have hm : mustTransform .isTrue "inertial" = true := by decide
  rw [hm, if_pos rfl] at h2
  unfold toCoprecessing at h2
  obtain ⟨w, hw, h2⟩ := bind_ok h2
  split at h2
  · rename_i hz
    exact ⟨w, v', h1, hw, transform_proper (transform_proper hp hw) h2, h3, Or.inl ⟨hz, h2⟩⟩
  · rename_i hz
    cases h2
    exact ⟨v', v', h1, hw, transform_proper hp hw, h3, Or.inr ⟨by simpa using hz, rfl⟩⟩

/-- The eccentric data used for a precessing system given in the inertial frame are those of the rotated modes. -/
theorem C48_eccentric (lib : WaveLib K C) (law : ∀ h, lib.polar (lib.abs h) (lib.phase h) = .ok h) (v nd : DataV K C)
    (r : Analysis K) (hp : ProperDicts v) (h : processData lib .isTrue "inertial" v none = .ok (nd, r)) :
    ∃ H t R, Given lib v "" (fun k => H.get? k) ∧ v.get? "t" = some (.arr t) ∧ Coprecessing lib t H R ∧
      ∀ R', (∀ k, R'.get? k = R.get? k) → IsDataOf lib nd "" t R' := by
  obtain ⟨w, v', h1, hw, hpv, hn, hz⟩ := inertial_ok hp h
  obtain ⟨H, t, R, f1, f2, f3, f4, f5, f6, f7, f8, f9⟩ := firstTransform hp h1 hw
  refine ⟨H, t, R, f1, f2, f3, fun R' hR' => ?_⟩
  have tr : ∀ {A B : Dict LM (List C)}, (∀ k, A.get? k = B.get? k) → IsDataOf lib nd "" t B → IsDataOf lib nd "" t A := by
    intro A B hAB hB k
    obtain ⟨b1, b2, b3⟩ := hB k
    rw [hAB k]
    exact ⟨b1, b2, b3⟩
  refine tr hR' ?_
  rcases hz with ⟨_, hz⟩ | ⟨_, rfl⟩
  · obtain ⟨R0, ⟨g1, g2, g3⟩ | ⟨g1, b, hb, g2, g3⟩⟩ := transform_ok hz
    · apply newData_isDataOf hpv hn "" (Or.inl rfl)
      · rw [g3]; simpa using f4
      · rw [g3]; simpa using f5
      · rw [has_false_iff, g3]; simpa using f6
      · rw [has_false_iff, g3]; simpa using f7
      · rw [has_false_iff, g3]; simpa using f8
    · obtain ⟨a, p, c, z, q, ha, hph, _, _, _, hpol, hcase⟩ := builtModes_ok (transform_proper hp hw) hb
      have hupd : ∀ key, key ≠ "hlm_zeroecc" → (w.update b).get? key = if key = "hlm" then some (.modesC c) else w.get? key := by
        intro key hk
        rcases hcase with ⟨_, hg⟩ | ⟨_, c0, _, _, hg⟩
        · exact hg w key
        · rw [hg, if_neg hk]
      have ea : a = R.map (fun p => (p.1, lib.abs p.2)) := by
        rcases realModes_spec lib.abs (transform_proper hp hw) ha with ⟨_, q2, _⟩ | ⟨_, cc, q2, _, q3⟩ | ⟨_, _, q3, _⟩
        · have q2 : w.get? "amplm" = some (.modesR a) := q2
          rw [f6] at q2; cases q2
        · have q2 : w.get? "hlm" = some (.modesC cc) := q2
          rw [f4] at q2; cases q2; exact q3
        · exact absurd rfl q3
      have ep : p = R.map (fun p => (p.1, lib.phase p.2)) := by
        rcases realModes_spec lib.phase (transform_proper hp hw) hph with ⟨_, q2, _⟩ | ⟨_, cc, q2, _, q3⟩ | ⟨_, _, q3, _⟩
        · have q2 : w.get? "phaselm" = some (.modesR p) := q2
          rw [f7] at q2; cases q2
        · have q2 : w.get? "hlm" = some (.modesC cc) := q2
          rw [f4] at q2; cases q2; exact q3
        · exact absurd rfl q3
      rw [ea, ep] at hpol
      have hc := polar_of_complex law hpol
      refine tr (fun k => (hc k).symm) ?_
      apply newData_isDataOf hpv hn "" (Or.inl rfl)
      · rw [g3, hupd _ (by decide)]; simp
      · rw [g3, hupd _ (by decide)]; simpa using f5
      · rw [has_false_iff, g3, hupd _ (by decide)]; simpa using f6
      · rw [has_false_iff, g3, hupd _ (by decide)]; simpa using f7
      · rw [has_false_iff, g3, hupd _ (by decide)]; simpa using f8
  · apply newData_isDataOf hpv hn "" (Or.inl rfl)
    · exact f4
    · exact f5
    · rw [has_false_iff]; exact f6
    · rw [has_false_iff]; exact f7
    · rw [has_false_iff]; exact f8

/-- If the quasicircular modes are given as complex modes, or if the eccentric ones are, then the quasicircular data used
are those of the rotated quasicircular modes.  What is missing: when both are given as amplitudes and phases the
quasicircular data stay in the inertial frame (`C48_zeroecc_violation`), and the flag must be the object `True`
(`C48_flag_violation`). -/
theorem C48_zeroecc_partial (lib : WaveLib K C) (law : ∀ h, lib.polar (lib.abs h) (lib.phase h) = .ok h) (v nd : DataV K C)
    (r : Analysis K) (hp : ProperDicts v) (h : processData lib .isTrue "inertial" v none = .ok (nd, r))
    (hz : v.has "hlm_zeroecc" = true ∨ (v.has "hlm" = true ∧ v.has "amplm_zeroecc" = true)) :
    ∃ H t R, Given lib v "_zeroecc" (fun k => H.get? k) ∧ v.get? "t_zeroecc" = some (.arr t) ∧ Coprecessing lib t H R ∧
      IsDataOf lib nd "_zeroecc" t R := by
  obtain ⟨w, v', h1, hw, hpv, hn, hz'⟩ := inertial_ok hp h
  have hpw := transform_proper hp hw
  obtain ⟨_, _, sh3⟩ := (checkShape_iff _).mp h1
  -- the quasicircular entries after the first transformation
  have hw0 : ∀ key ∈ ["t_zeroecc", "amplm_zeroecc", "phaselm_zeroecc", "omegalm_zeroecc"], w.get? key = v.get? key := by
    intro key hk
    simp only [List.mem_cons, List.not_mem_nil, or_false] at hk
    obtain ⟨R, ⟨g1, g2, g3⟩ | ⟨g1, b, hb, g2, g3⟩⟩ := transform_ok hw
    · rw [g3]; rcases hk with rfl | rfl | rfl | rfl <;> simp
    · obtain ⟨_, _, c, z, q, _, _, _, _, _, _, hcase⟩ := builtModes_ok hp hb
      rw [g3]
      rcases hcase with ⟨_, hg⟩ | ⟨_, c0, _, _, hg⟩ <;> rw [hg] <;> rcases hk with rfl | rfl | rfl | rfl <;> simp
  rcases hz with hz | ⟨hz1, hz2⟩
  · -- complex quasicircular modes
    obtain ⟨e, he⟩ := (Dict.has_iff_get? _ _).mp hz
    have na : v.get? "amplm_zeroecc" = none := by
      rw [← has_false_iff]
      cases hh : v.has "amplm_zeroecc"
      · rfl
      · exact absurd ⟨hz, Or.inl hh⟩ sh3
    have np : v.get? "phaselm_zeroecc" = none := by
      rw [← has_false_iff]
      cases hh : v.has "phaselm_zeroecc"
      · rfl
      · exact absurd ⟨hz, Or.inr hh⟩ sh3
    -- after the first transformation they are still there, mode by mode
    have hstay : (w.has "hlm_zeroecc" = true) ∧ ∀ c', w.get? "hlm_zeroecc" = some (.modesC c') →
        ∃ c, e = .modesC c ∧ ∀ k, c'.get? k = c.get? k := by
      obtain ⟨R, ⟨g1, g2, g3⟩ | ⟨g1, b, hb, g2, g3⟩⟩ := transform_ok hw
      · have : w.get? "hlm_zeroecc" = some e := by rw [g3]; simpa using he
        refine ⟨(Dict.has_iff_get? _ _).mpr ⟨e, this⟩, fun c' hc' => ?_⟩
        rw [this] at hc'
        cases hc'
        exact ⟨c', rfl, fun k => rfl⟩
      · obtain ⟨a, p, c, z, q, _, _, hz0, hq0, _, _, hcase⟩ := builtModes_ok hp hb
        rcases hcase with ⟨_, hg⟩ | ⟨_, c0, hc0, hpol, hg⟩
        · have : w.get? "hlm_zeroecc" = some e := by rw [g3, hg]; simpa using he
          refine ⟨(Dict.has_iff_get? _ _).mpr ⟨e, this⟩, fun c' hc' => ?_⟩
          rw [this] at hc'
          cases hc'
          exact ⟨c', rfl, fun k => rfl⟩
        · have this : w.get? "hlm_zeroecc" = some (.modesC c0) := by rw [g3, hg]; simp
          refine ⟨(Dict.has_iff_get? _ _).mpr ⟨_, this⟩, fun c' hc' => ?_⟩
          rw [this] at hc'
          cases hc'
          rcases realModes_spec lib.abs hp hz0 with ⟨q1, _⟩ | ⟨_, cc, q2, _, q3⟩ | ⟨_, q1, _⟩
          · have q1 : v.has "amplm_zeroecc" = true := q1
            rw [Dict.has_iff_get?, na] at q1; obtain ⟨_, q1⟩ := q1; cases q1
          · rcases realModes_spec lib.phase hp hq0 with ⟨q1, _⟩ | ⟨_, cc', q2', _, q3'⟩ | ⟨_, q1, _⟩
            · have q1 : v.has "phaselm_zeroecc" = true := q1
              rw [Dict.has_iff_get?, np] at q1; obtain ⟨_, q1⟩ := q1; cases q1
            · rw [q2] at q2'
              cases q2'
              rw [q3, q3'] at hpol
              have q2 : v.get? "hlm_zeroecc" = some (.modesC cc) := q2
              rw [he] at q2
              cases q2
              exact ⟨cc, rfl, polar_of_complex law hpol⟩
            · have q1 : v.has "hlm_zeroecc" = false := q1
              rw [hz] at q1; cases q1
          · have q1 : v.has "hlm_zeroecc" = false := q1
            rw [hz] at q1; cases q1
    rcases hz' with ⟨_, hz'⟩ | ⟨hz', _⟩
    · obtain ⟨R0, ⟨g1, g2, g3⟩ | ⟨g1, _⟩⟩ := transform_ok hz'
      · obtain ⟨H, t, e1, e2, e3⟩ := rotatedModes_ok g2
        have e1 : w.get? "hlm_zeroecc" = some (.modesC H) := e1
        have e2 : w.get? "t_zeroecc" = some (.arr t) := e2
        obtain ⟨c, rfl, hc⟩ := hstay.2 H e1
        refine ⟨H, t, R0, Or.inl ⟨c, he, hc⟩, by rw [← hw0 _ (by simp)]; exact e2, e3, ?_⟩
        apply newData_isDataOf hpv hn "_zeroecc" (Or.inr rfl)
        · rw [g3]; simp
        · rw [g3]; simpa using e2
        · rw [has_false_iff, g3]; simpa using (hw0 "amplm_zeroecc" (by simp)).trans na
        · rw [has_false_iff, g3]; simpa using (hw0 "phaselm_zeroecc" (by simp)).trans np
        · rw [has_false_iff, g3]; simp
      · have g1 : w.has "hlm_zeroecc" = false := g1
        rw [hstay.1] at g1; cases g1
    · rw [hstay.1] at hz'; cases hz'
  · -- complex eccentric modes, quasicircular amplitudes and phases
    have nh : v.get? "hlm_zeroecc" = none := by
      rw [← has_false_iff]
      cases hh : v.has "hlm_zeroecc"
      · rfl
      · exact absurd ⟨hh, Or.inl hz2⟩ sh3
    have nw : w.get? "hlm_zeroecc" = none := by
      obtain ⟨R, ⟨g1, g2, g3⟩ | ⟨g1, _⟩⟩ := transform_ok hw
      · rw [g3]; simpa using nh
      · have g1 : v.has "hlm" = false := g1
        rw [hz1] at g1; cases g1
    have aw : w.has "amplm_zeroecc" = true := by
      obtain ⟨e, he⟩ := (Dict.has_iff_get? _ _).mp hz2
      exact (Dict.has_iff_get? _ _).mpr ⟨e, (hw0 _ (by simp)).trans he⟩
    rcases hz' with ⟨_, hz'⟩ | ⟨hz', _⟩
    · obtain ⟨R0, ⟨g1, _⟩ | ⟨g1, b, hb, g2, g3⟩⟩ := transform_ok hz'
      · have g1 : w.has "hlm_zeroecc" = true := g1
        rw [Dict.has_iff_get?, nw] at g1; obtain ⟨_, g1⟩ := g1; cases g1
      · obtain ⟨H, t, e1, e2, e3⟩ := rotatedModes_ok g2
        have e1 : (w.update b).get? "hlm_zeroecc" = some (.modesC H) := e1
        have e2 : (w.update b).get? "t_zeroecc" = some (.arr t) := e2
        obtain ⟨a, p, c, z, q, _, _, hz0, hq0, _, _, hcase⟩ := builtModes_ok hpw hb
        rcases hcase with ⟨_, hg⟩ | ⟨hze, c0, hc0, hpol, hg⟩
        · rw [hg] at e1
          simp only [if_neg (by decide : ¬ "hlm_zeroecc" = "hlm")] at e1
          rw [nw] at e1; cases e1
        · rw [hg, if_pos rfl] at e1
          cases e1
          rw [hg, if_neg (by decide), if_neg (by decide)] at e2
          have hzg : v.get? "amplm_zeroecc" = some (.modesR z) := by
            rcases realModes_spec lib.abs hpw hz0 with ⟨_, q2, _⟩ | ⟨_, cc, q2, _⟩ | ⟨q1, _⟩
            · rw [← hw0 _ (by simp)]; exact q2
            · have q2 : w.get? "hlm_zeroecc" = some (.modesC cc) := q2
              rw [nw] at q2; cases q2
            · have q1 : w.has "amplm_zeroecc" = false := q1
              rw [aw] at q1; cases q1
          have hqg : v.get? "phaselm_zeroecc" = some (.modesR q) := by
            rcases realModes_spec lib.phase hpw hq0 with ⟨_, q2, _⟩ | ⟨_, cc, q2, _⟩ | ⟨_, _, _, q4⟩
            · rw [← hw0 _ (by simp)]; exact q2
            · have q2 : w.get? "hlm_zeroecc" = some (.modesC cc) := q2
              rw [nw] at q2; cases q2
            · -- no phases: the rotation finds no mode
              subst q4
              obtain ⟨x, hx⟩ := coprecessing_needs e3 2 (by omega) (by omega)
              rcases hpol (2, 2) with ⟨_, e⟩ | ⟨_, _, _, _, e, _⟩
              · rw [hx] at e; cases e
              · cases e
          refine ⟨H, t, R0, Or.inr ⟨nh, z, q, H, hzg, hqg, hpol, fun k => rfl⟩, by rw [← hw0 _ (by simp)]; exact e2, e3, ?_⟩
          apply newData_isDataOf hpv hn "_zeroecc" (Or.inr rfl)
          · rw [g3]; simp
          · rw [g3, hg]; simpa using e2
          · rw [has_false_iff, g3]; simp
          · rw [has_false_iff, g3]; simp
          · rw [has_false_iff, g3]; simp
    · rw [aw] at hz'; simp at hz'

/-- When both waveforms are given as amplitudes and phases the quasicircular data are not rotated: the run uses them in the
inertial frame. -/
theorem C48_zeroecc_violation (lib : WaveLib K C) (v nd : DataV K C)
    (r : Analysis K) (hp : ProperDicts v) (h : processData lib .isTrue "inertial" v none = .ok (nd, r))
    (ha : v.has "amplm" = true) (hz : v.has "amplm_zeroecc" = true) (hz' : v.has "phaselm_zeroecc" = true) (k : LM) :
    realMode nd "amplm_zeroecc" k = realMode v "amplm_zeroecc" k ∧
      realMode nd "phaselm_zeroecc" k = realMode v "phaselm_zeroecc" k := by
  obtain ⟨w, v', h1, hw, hpv, hn, hcase⟩ := inertial_ok hp h
  obtain ⟨_, sh2, sh3⟩ := (checkShape_iff _).mp h1
  have nh : v.has "hlm" = false := by
    cases hh : v.has "hlm"
    · rfl
    · exact absurd ⟨hh, Or.inl ha⟩ sh2
  have key : ∀ name ∈ ["amplm_zeroecc", "phaselm_zeroecc"], v'.get? name = v.get? name := by
    intro name hname
    simp only [List.mem_cons, List.not_mem_nil, or_false] at hname
    obtain ⟨R, ⟨g1, _⟩ | ⟨g1, b, hb, g2, g3⟩⟩ := transform_ok hw
    · have g1 : v.has "hlm" = true := g1
      rw [nh] at g1; cases g1
    obtain ⟨_, _, c, z, q, _, _, hz0, _, _, _, hb'⟩ := builtModes_ok hp hb
    have hwk : w.get? name = v.get? name := by
      rw [g3]
      rcases hb' with ⟨_, hg⟩ | ⟨_, c0, _, _, hg⟩ <;> rw [hg] <;> rcases hname with rfl | rfl <;> simp
    rcases hcase with ⟨_, hc⟩ | ⟨_, rfl⟩
    · obtain ⟨R0, ⟨f1, f2, f3⟩ | ⟨f1, b', hb2, f2, f3⟩⟩ := transform_ok hc
      · rw [f3, ← hwk]; rcases hname with rfl | rfl <;> simp
      · exfalso
        have f1 : w.has "hlm_zeroecc" = false := f1
        rcases hb' with ⟨hze, hg⟩ | ⟨_, c0, _, _, hg⟩
        · -- then the amplitudes are an empty dictionary and the second rotation finds nothing
          obtain ⟨a2, p2, c2, z2, q2, _, _, hz2, _, _, _, hb2'⟩ := builtModes_ok (transform_proper hp hw) hb2
          have hwz : w.get? "amplm_zeroecc" = v.get? "amplm_zeroecc" := by rw [g3, hg]; simp
          have hez : z2 = z := by
            have : realModes lib.abs "amplm" "_zeroecc" w = realModes lib.abs "amplm" "_zeroecc" v := by
              unfold realModes
              have e1 : w.get? ("amplm" ++ "_zeroecc") = v.get? ("amplm" ++ "_zeroecc") := hwz
              have e2 : v.has ("amplm" ++ "_zeroecc") = true := hz
              rw [Dict.has_congr e1, getR_congr e1, e2]
              rfl
            rw [this, hz0] at hz2
            exact (Except.ok.inj hz2).symm
          obtain ⟨H, t, e1, _, _⟩ := rotatedModes_ok f2
          have e1 : (w.update b').get? "hlm_zeroecc" = some (.modesC H) := e1
          rcases hb2' with ⟨_, hg2⟩ | ⟨hne, _⟩
          · rw [hg2, if_neg (by decide), (has_false_iff _ _).mp f1] at e1
            cases e1
          · rw [hez, hze] at hne; cases hne
        · rw [has_false_iff, g3, hg] at f1
          simp at f1
    · exact hwk
  obtain ⟨_, c2, c3, _, _⟩ := newData_contents hpv hn "_zeroecc" (Or.inr rfl) k
  have ka := key "amplm_zeroecc" (by simp)
  have kp := key "phaselm_zeroecc" (by simp)
  have r1 : v'.has ("amplm" ++ "_zeroecc") = true := (Dict.has_congr ka).trans hz
  have r2 : v'.has ("phaselm" ++ "_zeroecc") = true := (Dict.has_congr kp).trans hz'
  rw [r1, if_pos rfl] at c2
  rw [r2, if_pos rfl] at c3
  refine ⟨c2.trans ?_, c3.trans ?_⟩
  · unfold realMode
    rw [show "amplm" ++ "_zeroecc" = "amplm_zeroecc" from rfl, ka]
  · unfold realMode
    rw [show "phaselm" ++ "_zeroecc" = "phaselm_zeroecc" from rfl, kp]

/-- A flag that is true without being the object `True` (`1`, a numpy Boolean) makes the run use the precessing
combination of modes that were never rotated. -/
theorem C48_flag_violation (lib : WaveLib K C) (v nd : DataV K C) (r : Analysis K) (hp : ProperDicts v)
    (h : processData lib .truthy "inertial" v none = .ok (nd, r)) (k : LM) :
    realMode nd "amplm" k = ampMode lib v k ∧ realMode nd "phaselm" k = phaseMode lib v k ∧
      ∃ q, gwQuantities true nd "" = .ok q := by
  obtain ⟨_, c2, c3, _⟩ := C03_contents lib .truthy "inertial" v nd r hp (Or.inl (by decide)) h "" (Or.inl rfl) k
  refine ⟨c2, c3, ?_⟩
  obtain ⟨v', full, _, _, _, h4, h5⟩ := processData_ok h
  obtain ⟨_, _, _, _, _, _, _, _, _, _, _, _, _, _, _, _, g6, _⟩ := (analyse_spec h4).parts
  have hc := (C20_none lib _ _ v nd r hp h).1
  rcases h5 with ⟨_, rfl⟩ | ⟨idx, h5, _⟩
  · exact ⟨_, g6⟩
  · rw [hc] at h5; cases h5

end C48

end GwEcc
