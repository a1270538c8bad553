import Verif.Lemmas.Levels
import Verif.Lemmas.MeasureDemo
import Verif.Props.Average
import Verif.Spec.Separation

/-!
# C66, C67 The diagnostics on the extrema, and the debug level
-/

set_option linter.unusedSectionVars false

namespace GwEcc

variable {K : Type} [Field K] [LinearOrder K] [IsStrictOrderedRing K]

/-! ## C67 The debug level never changes a result -/

/-- The same object at another debug level. -/
def Obj.atLevel (o : Obj K) (L : ℤ) : Obj K := { o with level := L }

/-- The same measurement state at another debug level. -/
def Meas.atLevel (m : Meas K) (L : ℤ) : Meas K := { m with o := m.o.atLevel L }

/-- The external parts of a run at level `L` against those of a run at level 0: the finder of extrema and the rational fits
give messages themselves, so they may raise at a level that is not quiet; apart from that they return the same. -/
def SameExt (L : ℤ) (e e0 : Ext K) : Prop :=
  e = { e0 with ratFit := e.ratFit, find := e.find } ∧
  (∀ ty x y x' y', Lvl (Quiet L) Eq (e.ratFit ty x y x' y') (e0.ratFit ty x y x' y')) ∧
  (∀ ty, Lvl (Quiet L) Eq (e.find ty) (e0.find ty))

theorem SameExt.refl (L : ℤ) (e : Ext K) : SameExt L e e := ⟨rfl, fun _ _ _ _ _ => Lvl.rfl' _, fun _ => Lvl.rfl' _⟩

section

variable {L : ℤ} {e e0 : Ext K} {o : Obj K}

theorem findBoth_lvl (he : SameExt L e e0) :
    Lvl (Quiet L) Eq (findBoth e (o.atLevel L)) (findBoth e0 (o.atLevel 0)) := by
  obtain ⟨h1, h2, h3⟩ := he
  have hc : ∀ l, checkNumExtrema e (o.atLevel L) l = checkNumExtrema e0 (o.atLevel 0) l := by
    intro l; rw [h1]; rfl
  unfold findBoth
  refine Lvl.bind (h3 _) ?_
  rintro p _ rfl
  rw [hc]
  refine Lvl.bind (Lvl.rfl' _) ?_
  rintro ip _ rfl
  refine Lvl.bind (R := Eq) ?_ ?_
  · exact Lvl.ite (fun _ => .ok rfl) fun _ => h3 _
  · rintro a _ rfl
    rw [hc]
    exact Lvl.rfl' _

theorem settle_lvl (he : SameExt L e e0) (p a : List ℕ) :
    Lvl (Quiet L) Eq (settleExtrema e (o.atLevel L) p a) (settleExtrema e0 (o.atLevel 0) p a) ∨
    (settleExtrema e (o.atLevel L) p a = .error .indexError ∧ settleExtrema e0 (o.atLevel 0) p a = .ok ([], [])) := by
  have hpi : e.pi = e0.pi := by rw [he.1]
  have hset : ∀ (e : Ext K) (L : ℤ), settleExtrema e (o.atLevel L) p a =
      (getGoodExtrema (at' o.phase) (3 / 2) (4 * e.pi) L p a >>= fun q =>
        checkDropped L p q.1 >>= fun _ => checkDropped L a q.2 >>= fun _ =>
        (fun s : List ℕ × List ℕ => checkAlternate (at' o.t) L s.1 s.2 >>= fun _ =>
          checkSeparation e.pi L false (takeAt o.phase s.1) (takeAt o.t s.1) >>= fun _ =>
          checkSeparation e.pi L false (takeAt o.phase s.2) (takeAt o.t s.2) >>= fun _ => pure (s.1, s.2))
        (if (o.precessing && o.filtered) = true then (q.1.drop 1, q.2.drop 1) else (q.1, q.2))) := fun _ _ => rfl
  rw [hset, hset, hpi]
  have hg := getGoodExtrema_lvl (at' o.phase) (3 / 2) (4 * e0.pi) L p a
  revert hg
  generalize getGoodExtrema (at' o.phase) (3 / 2) (4 * e0.pi) L p a = x
  generalize getGoodExtrema (at' o.phase) (3 / 2) (4 * e0.pi) 0 p a = y
  intro hg
  cases hg with
  | error e => exact Or.inl (.error e)
  | strict h e y => exact Or.inl (.strict h e _)
  | ok h =>
    subst h
    rename_i q
    obtain ⟨q1, q2⟩ := q
    simp only [ok_bind]
    generalize (if (o.precessing && o.filtered) = true then (q1.drop 1, q2.drop 1) else (q1, q2)) = s
    obtain ⟨s1, s2⟩ := s
    -- the checks do nothing at level 0
    have hz : (checkDropped 0 p q1 >>= fun _ => checkDropped 0 a q2 >>= fun _ =>
        checkAlternate (at' o.t) 0 s1 s2 >>= fun _ =>
        checkSeparation e0.pi 0 false (takeAt o.phase s1) (takeAt o.t s1) >>= fun _ =>
        checkSeparation e0.pi 0 false (takeAt o.phase s2) (takeAt o.t s2) >>= fun _ =>
        pure (s1, s2) : Py (List ℕ × List ℕ)) = .ok (s1, s2) := rfl
    simp only
    rw [hz]
    rcases checkAlternate_lvl (at' o.t) L s1 s2 with hA | ⟨hA, rfl, rfl⟩
    · left
      refine Lvl.skip (checkDropped_lvl L p q1) fun _ => ?_
      refine Lvl.skip (checkDropped_lvl L a q2) fun _ => ?_
      refine Lvl.skip hA fun _ => ?_
      refine Lvl.skip (checkSeparation_lvl _ _ _ _ _) fun _ => ?_
      refine Lvl.skip (checkSeparation_lvl _ _ _ _ _) fun _ => ?_
      exact .ok rfl
    · -- no extrema are left
      have h1 := checkDropped_lvl L p q1
      have h2 := checkDropped_lvl L a q2
      revert h1 h2
      generalize checkDropped L p q1 = c1
      generalize checkDropped L a q2 = c2
      intro h1 h2
      cases h1 with
      | strict h e y => exact Or.inl (.strict h e _)
      | ok _ =>
        cases h2 with
        | strict h e y => exact Or.inl (.strict h e _)
        | ok _ =>
          right
          simp only [ok_bind]
          rw [hA]
          exact ⟨rfl, trivial⟩

theorem extremaInterpolant_lvl (he : SameExt L e e0) (ty : ExtType) (p a : List ℕ) (tc : List K) :
    Lvl (Quiet L) Eq (extremaInterpolant e (o.atLevel L) ty p a tc) (extremaInterpolant e0 (o.atLevel 0) ty p a tc) := by
  obtain ⟨h1, h2, h3⟩ := he
  have hev : e.eval = e0.eval := by rw [h1]
  have hmt : e.monoTol = e0.monoTol := by rw [h1]
  unfold extremaInterpolant
  simp only [Obj.atLevel]
  refine Lvl.ite (fun _ => ?_) fun _ => .error _
  refine Lvl.bind (R := Eq) ?_ ?_
  · refine Lvl.ite (fun _ => h2 _ _ _ _ _) fun _ => ?_
    rw [hev]
    exact Lvl.rfl' _
  · rintro f _ rfl
    rw [hmt]
    refine Lvl.bind (Lvl.rfl' _) ?_
    rintro v _ rfl
    refine Lvl.bind (Lvl.rfl' _) ?_
    rintro b _ rfl
    by_cases hb : b = true
    · rw [if_pos hb, if_pos hb]
      exact message_bind fun _ _ => .ok rfl
    · rw [if_neg hb, if_neg hb]
      exact .ok rfl

theorem prepare_lvl (he : SameExt L e e0) (p a : List ℕ) :
    Lvl (Quiet L) (fun m m0 => m.atLevel 0 = m0 ∧ m = m.atLevel L) (prepare e (o.atLevel L) p a) (prepare e0 (o.atLevel 0) p a) := by
  unfold prepare
  dsimp only [Obj.atLevel]
  refine Lvl.bind (Lvl.rfl' _) ?_
  rintro pL _ rfl
  refine Lvl.bind (Lvl.rfl' _) ?_
  rintro aL _ rfl
  refine Lvl.bind (Lvl.rfl' _) ?_
  rintro pF _ rfl
  refine Lvl.bind (Lvl.rfl' _) ?_
  rintro aF _ rfl
  refine Lvl.bind (extremaInterpolant_lvl (o := o) he _ _ _ _) ?_
  rintro fP _ rfl
  refine Lvl.bind (extremaInterpolant_lvl (o := o) he _ _ _ _) ?_
  rintro fA _ rfl
  exact .ok ⟨rfl, rfl⟩

/-- What follows once the interpolants are there, at level `L` against level 0. -/
theorem evaluate_lvl [FloorRing K] (he : SameExt L e e0) (m : Meas K) (c : AvgCache K) :
    Lvl (Quiet L) Eq (evaluate e (m.atLevel L) c) (evaluate e0 (m.atLevel 0) c) := by
  obtain ⟨h1, h2, h3⟩ := he
  have hav : ∀ x, omegaAverage e (m.atLevel L) x = omegaAverage e0 (m.atLevel 0) x := by
    intro x; rw [h1]; rfl
  have hbounds : ∀ c x, Lvl (Quiet L) Eq (frefBounds e (m.atLevel L) c x) (frefBounds e0 (m.atLevel 0) c x) := by
    intro c x
    have hpi : e.pi = e0.pi := by rw [h1]
    unfold frefBounds
    rw [hav, hpi]
    show Lvl _ _ ((if m.o.useOnly = true then debugMessage L false else pure .silent) >>= _)
        ((if m.o.useOnly = true then debugMessage 0 false else pure .silent) >>= _)
    by_cases hm : m.o.useOnly = true
    · rw [if_pos hm, if_pos hm]
      exact message_bind fun _ _ => Lvl.rfl' _
    · rw [if_neg hm, if_neg hm]
      exact Lvl.rfl' _
  have hout : ∀ c f x, Lvl (Quiet L) Eq (frefOut e (m.atLevel L) c f x) (frefOut e0 (m.atLevel 0) c f x) := by
    intro c f x
    unfold frefOut
    refine Lvl.bind (hbounds _ _) ?_
    rintro b _ rfl
    exact Lvl.rfl' _
  have htref : ∀ c f, Lvl (Quiet L) Eq (trefFromFref e (m.atLevel L) c f) (trefFromFref e0 (m.atLevel 0) c f) := by
    intro c f
    have hpi : e.pi = e0.pi := by rw [h1]
    have htol : e.tol = e0.tol := by rw [h1]
    have hev : e.eval = e0.eval := by rw [h1]
    unfold trefFromFref
    rw [hpi, htol, hev]
    refine Lvl.ite (fun _ => ?_) fun _ => .error _
    refine Lvl.bind (hout _ _ _) ?_
    rintro q _ rfl
    refine Lvl.bind (R := Eq) (by rw [hav]; exact Lvl.rfl' _) ?_
    rintro tw _ rfl
    refine Lvl.bind (Lvl.rfl' _) ?_
    rintro _ _ rfl
    refine Lvl.bind (Lvl.rfl' _) ?_
    rintro tref _ rfl
    by_cases hb : (diff tref).any (fun d => decide (d ≤ 0)) = true
    · rw [if_pos hb, if_pos hb]
      exact message_bind fun _ _ => .ok rfl
    · rw [if_neg hb, if_neg hb]
      exact .ok rfl
  have hmono : ∀ {γ : Type} {S : γ → γ → Prop} (f g : Outcome → Py γ), (∀ a b, Lvl (Quiet L) S (f a) (g b)) →
      Lvl (Quiet L) S (checkMonotonicity e (m.atLevel L) >>= f) (checkMonotonicity e0 (m.atLevel 0) >>= g) := by
    intro γ S f g hfg
    have hd : ∀ ts, derivativeOfEccentricity e (m.atLevel L) ts = derivativeOfEccentricity e0 (m.atLevel 0) ts := by
      intro ts; rw [h1]; rfl
    unfold checkMonotonicity
    rw [hd]
    rw [bind_assoc, bind_assoc]
    refine Lvl.bind (Lvl.rfl' _) ?_
    rintro d _ rfl
    by_cases hb : d.any (fun x => decide (x > 0)) = true
    · rw [if_pos hb, if_pos hb]
      exact message_bind hfg
    · rw [if_neg hb, if_neg hb]
      exact hfg _ _
  have hecc : ∀ ts, computeEccentricity e (m.atLevel L) ts = computeEccentricity e0 (m.atLevel 0) ts := by
    intro ts; rw [h1]; rfl
  have hano : ∀ ts, computeMeanAnomaly e (m.atLevel L) ts = computeMeanAnomaly e0 (m.atLevel 0) ts := by
    intro ts; rw [h1]; rfl
  have href : Lvl (Quiet L) Eq (referenceTimes e (m.atLevel L) c) (referenceTimes e0 (m.atLevel 0) c) := by
    unfold referenceTimes
    dsimp only [Meas.atLevel, Obj.atLevel]
    cases m.o.domain with
    | time => exact .ok rfl
    | frequency =>
      refine Lvl.bind (htref _ _) ?_
      rintro q _ rfl
      exact Lvl.rfl' _
  unfold evaluate
  refine Lvl.bind href ?_
  rintro ⟨trefIn, fOut, c'⟩ _ rfl
  refine Lvl.ite (fun _ => .error _) fun _ => ?_
  refine Lvl.ite (fun _ => Lvl.rfl' _) fun _ => ?_
  refine Lvl.bind (Lvl.rfl' _) ?_
  rintro t0 _ rfl
  refine Lvl.bind (Lvl.rfl' _) ?_
  rintro t1 _ rfl
  refine Lvl.bind (Lvl.rfl' _) ?_
  rintro p0 _ rfl
  refine Lvl.bind (Lvl.rfl' _) ?_
  rintro p1 _ rfl
  refine Lvl.ite (fun _ => .error _) fun _ => ?_
  refine Lvl.bind (R := Eq) (by rw [hecc]; exact Lvl.rfl' _) ?_
  rintro ecc _ rfl
  refine Lvl.bind (R := Eq) (by rw [hano]; exact Lvl.rfl' _) ?_
  rintro ano _ rfl
  refine hmono _ _ fun _ _ => ?_
  by_cases hb : ecc.any (fun x => decide (x < 0)) = true
  · rw [if_pos hb, if_pos hb]
    exact message_bind fun _ _ => Lvl.rfl' _
  · rw [if_neg hb, if_neg hb]
    exact Lvl.rfl' _

/-- A whole measurement at level `L` against the same at level 0. -/
theorem measureEcc_lvl [FloorRing K] (he : SameExt L e e0) (c : AvgCache K) :
    Lvl (Quiet L) (fun r r0 => r.1 = r0.1 ∧ r.2.1.map (·.atLevel 0) = r0.2.1 ∧ r.2.2 = r0.2.2)
      (measureEcc e (o.atLevel L) c) (measureEcc e0 (o.atLevel 0) c) := by
  unfold measureEcc
  refine Lvl.bind (findBoth_lvl he) ?_
  rintro ⟨p, a, lacking⟩ _ rfl
  refine Lvl.ite (fun _ => ?_) fun _ => ?_
  · refine Lvl.bind (R := Eq) (Lvl.rfl' _) ?_
    rintro r _ rfl
    exact .ok ⟨rfl, rfl, rfl⟩
  · rcases settle_lvl (o := o) he p a with hs | ⟨hs, hs0⟩
    · refine Lvl.bind hs ?_
      rintro ⟨p', a'⟩ _ rfl
      refine Lvl.bind (prepare_lvl (o := o) he _ _) ?_
      rintro m _ ⟨rfl, hm⟩
      rw [hm]
      refine Lvl.bind (evaluate_lvl he m c) ?_
      rintro ⟨r, c'⟩ _ rfl
      exact .ok ⟨rfl, rfl, rfl⟩
    · rw [hs, hs0]
      exact .error _

end

/-- Levels -1, 0 and 1 agree in everything but the warnings: the same dictionary, the same stored average, the same
exception. -/
theorem C67_quiet [FloorRing K] (L : ℤ) (hL : L = -1 ∨ L = 0 ∨ L = 1) (e e0 : Ext K) (he : SameExt L e e0) (o : Obj K)
    (c : AvgCache K) :
    (measureEcc e (o.atLevel L) c).map (fun r => (r.1, r.2.2)) = (measureEcc e0 (o.atLevel 0) c).map (fun r => (r.1, r.2.2)) := by
  have h := measureEcc_lvl (o := o) he c
  revert h
  generalize measureEcc e (o.atLevel L) c = x
  generalize measureEcc e0 (o.atLevel 0) c = y
  intro h
  cases h with
  | ok h => simp only [Except.map, h.1, h.2.2]
  | error e => rfl
  | strict h => exact absurd hL h

/-- At any level, a measurement that succeeds returns what it returns at level 0; in particular the strict level 2, at which
warnings become exceptions, can only refuse an answer. -/
theorem C67_strict [FloorRing K] (L : ℤ) (e e0 : Ext K) (he : SameExt L e e0) (o : Obj K) (c c' : AvgCache K)
    (r : Dict String (Val K)) (m : Option (Meas K)) (h : measureEcc e (o.atLevel L) c = .ok (r, m, c')) :
    ∃ m0, measureEcc e0 (o.atLevel 0) c = .ok (r, m0, c') := by
  have hl := measureEcc_lvl (o := o) he c
  rw [h] at hl
  revert hl
  generalize measureEcc e0 (o.atLevel 0) c = y
  intro hl
  cases hl with
  | ok h =>
    rename_i b
    exact ⟨b.2.1, congrArg Except.ok (Prod.ext h.1.symm (Prod.ext rfl h.2.2.symm))⟩

/-- The premises are met, and the levels really differ: a measurement with two pericenters too many at the end succeeds at
levels -1 and 0 and is refused at level 2. -/
example : SameExt 2 Demo.ext Demo.ext ∧
    ((measureEcc { Demo.ext with find := fun ty => match ty with
        | .pericenters => .ok [2, 6, 10, 14, 18]
        | .apocenters => .ok [4, 8, 12] } (Demo.obj.atLevel (-1)) none).map (·.1.get? "tref_out")) = .ok (some (.array [5])) ∧
    ((measureEcc { Demo.ext with find := fun ty => match ty with
        | .pericenters => .ok [2, 6, 10, 14, 18]
        | .apocenters => .ok [4, 8, 12] } (Demo.obj.atLevel 0) none).map (·.1.get? "tref_out")) = .ok (some (.array [5])) ∧
    ((measureEcc { Demo.ext with find := fun ty => match ty with
        | .pericenters => .ok [2, 6, 10, 14, 18]
        | .apocenters => .ok [4, 8, 12] } (Demo.obj.atLevel 2) none).map (·.1.get? "tref_out")) = .error .exception :=
  ⟨SameExt.refl _ _, by decide +kernel, by decide +kernel, by decide +kernel⟩

/-! ## C66 The diagnostics on the extrema -/

open Spec

section separation

variable {pi : K} {ph ts : List K}

theorem step_getElem (i : ℕ) (h : i < (diff (ph.map (· / 2))).length) :
    (diff (ph.map (· / 2)))[i] = OrbitalStep ph i := by
  have hl := length_diff (ph.map (· / 2))
  simp only [List.length_map] at hl
  rw [getElem_diff _ _ h (by simp only [List.length_map]; omega)]
  unfold OrbitalStep
  rw [List.getD_eq_getElem _ _ (by omega), List.getD_eq_getElem _ _ (by omega), List.getElem_map, List.getElem_map]
  ring

theorem any_steps (f : K → Bool) (d : List K) (hd : d = diff (ph.map (· / 2))) :
    d.any f = true ↔ ∃ i, i + 1 < ph.length ∧ f (OrbitalStep ph i) = true := by
  subst hd
  have hl := length_diff (ph.map (· / 2))
  simp only [List.length_map] at hl
  rw [List.any_eq_true]
  constructor
  · rintro ⟨x, hx, hf⟩
    obtain ⟨i, hi, rfl⟩ := List.getElem_of_mem hx
    rw [step_getElem] at hf
    exact ⟨i, by omega, hf⟩
  · rintro ⟨i, hi, hf⟩
    have h : i < (diff (ph.map (· / 2))).length := by omega
    exact ⟨_, List.getElem_mem h, by rw [step_getElem]; exact hf⟩

theorem close_iff (hpi : 0 < pi) (x : K) : |x - pi| < |x - 2 * pi| ↔ x < 3 / 2 * pi := by
  rw [← sq_lt_sq]
  constructor
  · intro h; nlinarith
  · intro h; nlinarith

/-- The ratios compared with 3/2. -/
theorem ratio_getElem (i : ℕ) (r : List K)
    (hr : r = 0 :: List.zipWith (· / ·) ((diff (ph.map (· / 2))).drop 1) (diff (ph.map (· / 2))).dropLast)
    (h : i + 1 < r.length) : i + 2 < ph.length ∧ r[i + 1] = OrbitalStep ph (i + 1) / OrbitalStep ph i := by
  subst hr
  have hl := length_diff (ph.map (· / 2))
  simp only [List.length_map] at hl
  simp only [List.length_cons, List.length_zipWith, List.length_drop, List.length_dropLast] at h
  refine ⟨by omega, ?_⟩
  simp only [List.getElem_cons_succ, List.getElem_zipWith, List.getElem_drop, List.getElem_dropLast]
  rw [step_getElem, step_getElem, Nat.add_comm 1 i]

theorem any_ratio (hpos : ∀ i, i + 1 < ph.length → 0 < OrbitalStep ph i) (r : List K)
    (hr : r = 0 :: List.zipWith (· / ·) ((diff (ph.map (· / 2))).drop 1) (diff (ph.map (· / 2))).dropLast) (k : ℕ) :
    (∃ h : k < r.length, decide (r[k] > 3 / 2) = true) ↔ ∃ i, k = i + 1 ∧ TooFar ph i := by
  constructor
  · rintro ⟨h, hk⟩
    cases k with
    | zero =>
      subst hr
      simp only [List.getElem_cons_zero, decide_eq_true_eq] at hk
      exact absurd hk (by norm_num)
    | succ i =>
      obtain ⟨h1, h2⟩ := ratio_getElem i r hr h
      rw [h2] at hk
      simp only [decide_eq_true_eq] at hk
      exact ⟨i, rfl, h1, (lt_div_iff₀ (hpos i (by omega))).mp hk⟩
  · rintro ⟨i, rfl, h1, h2⟩
    have hl := length_diff (ph.map (· / 2))
    simp only [List.length_map] at hl
    have hlen : i + 1 < r.length := by
      subst hr
      simp only [List.length_cons, List.length_zipWith, List.length_drop, List.length_dropLast]
      omega
    refine ⟨hlen, ?_⟩
    rw [(ratio_getElem i r hr hlen).2]
    simp only [decide_eq_true_eq]
    exact (lt_div_iff₀ (hpos i (by omega))).mpr h2

end separation

/-- At level 1 the check returns and warns of exactly the offences present: extrema too close, a step closer to half an orbit
than to a full one, a step much larger than the one before.  The times printed are those of the later extremum of each
offending pair. -/
theorem C66_separation (pi : K) (hpi : 0 < pi) (b : Bool) (ph ts : List K)
    (hlen : ph.length = ts.length) (hpos : ∀ i, i + 1 < ph.length → 0 < OrbitalStep ph i) :
    ∃ r ws, checkSeparation pi 1 b ph ts = .ok (r, ws) ∧
      ((∃ l, .tooClose l ∈ ws) ↔ ∃ i, TooClose pi ph i) ∧
      (.closerToPi ∈ ws ↔ ∃ i, HalfOrbit pi ph i) ∧
      ((∃ l, .tooFar l ∈ ws) ↔ ∃ i, TooFar ph i) ∧
      (∀ l, .tooClose l ∈ ws → ∀ x, x ∈ l ↔ ∃ i, TooClose pi ph i ∧ ts[i + 1]? = some x) ∧
      (∀ l, .tooFar l ∈ ws → ∀ x, x ∈ l ↔ ∃ i, TooFar ph i ∧ ts[i + 2]? = some x) := by
  have hl := length_diff (ph.map (· / 2))
  simp only [List.length_map] at hl
  obtain ⟨d, hd⟩ : ∃ d, d = diff (ph.map (· / 2)) := ⟨_, rfl⟩
  obtain ⟨r, hr⟩ : ∃ r, r = 0 :: List.zipWith (· / ·) (d.drop 1) d.dropLast := ⟨_, rfl⟩
  have hrun : checkSeparation pi 1 b ph ts = .ok (some (d, r),
      (if d.any (fun x => decide (x < pi)) then
          [SepWarning.tooClose (takeAt (ts.drop 1) (npWhere (fun x => decide (x < pi)) d))] else []) ++
      (if d.any (fun x => decide (|x - pi| < |x - 2 * pi|)) then [SepWarning.closerToPi] else []) ++
      (if r.any (fun x => decide (x > 3 / 2)) then
          [SepWarning.tooFar (takeAt (ts.drop 1) (npWhere (fun x => decide (x > 3 / 2)) r))] else [])) := by
    unfold checkSeparation
    rw [if_neg (by simp)]
    dsimp only
    rw [← hd, ← hr]
    cases d.any (fun x => decide (x < pi)) <;> cases d.any (fun x => decide (|x - pi| < |x - 2 * pi|)) <;>
      cases r.any (fun x => decide (x > 3 / 2)) <;> rfl
  have h1 : d.any (fun x => decide (x < pi)) = true ↔ ∃ i, TooClose pi ph i := by
    rw [any_steps _ d hd]
    simp only [decide_eq_true_eq, TooClose]
  have h2 : d.any (fun x => decide (|x - pi| < |x - 2 * pi|)) = true ↔ ∃ i, HalfOrbit pi ph i := by
    rw [any_steps _ d hd]
    simp only [decide_eq_true_eq, HalfOrbit, close_iff hpi]
  have hr' : r = 0 :: List.zipWith (· / ·) ((diff (ph.map (· / 2))).drop 1) (diff (ph.map (· / 2))).dropLast := by
    rw [hr, hd]
  have h3 : r.any (fun x => decide (x > 3 / 2)) = true ↔ ∃ i, TooFar ph i := by
    rw [List.any_eq_true]
    constructor
    · rintro ⟨x, hx, hf⟩
      obtain ⟨k, hk, rfl⟩ := List.getElem_of_mem hx
      obtain ⟨i, _, hi⟩ := (any_ratio hpos r hr' k).mp ⟨hk, hf⟩
      exact ⟨i, hi⟩
    · rintro ⟨i, hi⟩
      obtain ⟨hk, hf⟩ := (any_ratio hpos r hr' (i + 1)).mpr ⟨i, rfl, hi⟩
      exact ⟨_, List.getElem_mem hk, hf⟩
  have htake : ∀ idx : List ℕ, (∀ k ∈ idx, k + 1 < ts.length) → ∀ x, x ∈ takeAt (ts.drop 1) idx ↔ ∃ k ∈ idx, ts[k + 1]? = some x := by
    intro idx hidx x
    unfold takeAt at'
    simp only [List.mem_map]
    constructor
    · rintro ⟨k, hk, rfl⟩
      refine ⟨k, hk, ?_⟩
      have := hidx k hk
      rw [List.getD_eq_getElem _ _ (by simp; omega), List.getElem_drop, List.getElem?_eq_getElem this]
      simp only [Nat.add_comm]
    · rintro ⟨k, hk, hx⟩
      refine ⟨k, hk, ?_⟩
      have := hidx k hk
      rw [List.getD_eq_getElem _ _ (by simp; omega), List.getElem_drop]
      rw [List.getElem?_eq_getElem this] at hx
      injection hx with hx
      rw [← hx]
      simp only [Nat.add_comm]
  refine ⟨_, _, hrun, ?_, ?_, ?_, ?_, ?_⟩
  · rw [← h1]
    generalize d.any (fun x => decide (x < pi)) = b1
    generalize d.any (fun x => decide (|x - pi| < |x - 2 * pi|)) = b2
    generalize r.any (fun x => decide (x > 3 / 2)) = b3
    cases b1 <;> cases b2 <;> cases b3 <;> simp
  · rw [← h2]
    generalize d.any (fun x => decide (x < pi)) = b1
    generalize d.any (fun x => decide (|x - pi| < |x - 2 * pi|)) = b2
    generalize r.any (fun x => decide (x > 3 / 2)) = b3
    cases b1 <;> cases b2 <;> cases b3 <;> simp
  · rw [← h3]
    generalize d.any (fun x => decide (x < pi)) = b1
    generalize d.any (fun x => decide (|x - pi| < |x - 2 * pi|)) = b2
    generalize r.any (fun x => decide (x > 3 / 2)) = b3
    cases b1 <;> cases b2 <;> cases b3 <;> simp
  · intro l hm x
    have hll : l = takeAt (ts.drop 1) (npWhere (fun x => decide (x < pi)) d) := by
      revert hm
      split_ifs <;> simp
    subst hll
    rw [htake]
    · constructor
      · rintro ⟨k, hk, hx⟩
        obtain ⟨hk1, hk2⟩ := (mem_npWhere _ _ _).mp hk
        subst hd
        rw [step_getElem] at hk2
        exact ⟨k, ⟨by omega, by simpa using hk2⟩, hx⟩
      · rintro ⟨k, ⟨hk1, hk2⟩, hx⟩
        refine ⟨k, (mem_npWhere _ _ _).mpr ⟨by rw [hd]; omega, ?_⟩, hx⟩
        subst hd
        rw [step_getElem]
        simpa using hk2
    · intro k hk
      obtain ⟨hk1, _⟩ := (mem_npWhere _ _ _).mp hk
      rw [hd] at hk1
      omega
  · intro l hm x
    have hll : l = takeAt (ts.drop 1) (npWhere (fun x => decide (x > 3 / 2)) r) := by
      revert hm
      split_ifs <;> simp
    subst hll
    rw [htake]
    · constructor
      · rintro ⟨k, hk, hx⟩
        obtain ⟨i, rfl, hi⟩ := (any_ratio hpos r hr' k).mp ((mem_npWhere _ _ _).mp hk)
        exact ⟨i, hi, hx⟩
      · rintro ⟨i, hi, hx⟩
        exact ⟨i + 1, (mem_npWhere _ _ _).mpr ((any_ratio hpos r hr' (i + 1)).mpr ⟨i, rfl, hi⟩), hx⟩
    · intro k hk
      obtain ⟨i, rfl, hi⟩ := (any_ratio hpos r hr' k).mp ((mem_npWhere _ _ _).mp hk)
      have := hi.1
      omega

/-- At level 2 the check raises exactly when there is such an offence. -/
theorem C66_separation_strict (pi : K) (hpi : 0 < pi) (b : Bool) (ph ts : List K)
    (hlen : ph.length = ts.length) (hpos : ∀ i, i + 1 < ph.length → 0 < OrbitalStep ph i) :
    (checkSeparation pi 2 b ph ts = .error .exception ↔ ∃ i, TooClose pi ph i ∨ HalfOrbit pi ph i ∨ TooFar ph i) ∧
    (checkSeparation pi 2 b ph ts ≠ .error .exception → ∃ r, checkSeparation pi 2 b ph ts = .ok (r, [])) := by
  obtain ⟨r0, ws, h1, hc, hh, hf, _⟩ := C66_separation pi hpi b ph ts hlen hpos
  have key : (ws = [] → ∃ r, checkSeparation pi 2 b ph ts = .ok (r, [])) ∧
      (ws ≠ [] → checkSeparation pi 2 b ph ts = .error .exception) := by
    revert h1
    unfold checkSeparation
    rw [if_neg (by simp), if_neg (by simp)]
    dsimp only
    generalize (diff (ph.map (· / 2))).any (fun x => decide (x < pi)) = b1
    generalize (diff (ph.map (· / 2))).any (fun x => decide (|x - pi| < |x - 2 * pi|)) = b2
    generalize (List.any (0 :: List.zipWith (· / ·) ((diff (ph.map (· / 2))).drop 1) (diff (ph.map (· / 2))).dropLast) (fun x => decide (x > 3 / 2))) = b3
    cases b1 <;> cases b2 <;> cases b3 <;> intro h1 <;> have h2 := Except.ok.inj h1 <;>
      simp only [Prod.mk.injEq] at h2 <;> obtain ⟨-, rfl⟩ := h2 <;>
      first
        | exact ⟨fun _ => ⟨_, rfl⟩, fun h => absurd rfl h⟩
        | exact ⟨fun h => by simp [debugMessage] at h, fun _ => rfl⟩
  have hws : ws ≠ [] ↔ ∃ i, TooClose pi ph i ∨ HalfOrbit pi ph i ∨ TooFar ph i := by
    constructor
    · intro hne
      obtain ⟨w, hw⟩ := List.exists_mem_of_ne_nil _ hne
      cases w with
      | tooClose l => obtain ⟨i, hi⟩ := hc.mp ⟨l, hw⟩; exact ⟨i, Or.inl hi⟩
      | closerToPi => obtain ⟨i, hi⟩ := hh.mp hw; exact ⟨i, Or.inr (Or.inl hi)⟩
      | tooFar l => obtain ⟨i, hi⟩ := hf.mp ⟨l, hw⟩; exact ⟨i, Or.inr (Or.inr hi)⟩
    · rintro ⟨i, hi | hi | hi⟩ hnil
      · obtain ⟨l, hl⟩ := hc.mpr ⟨i, hi⟩
        rw [hnil] at hl; exact absurd hl (by simp)
      · have := hh.mpr ⟨i, hi⟩
        rw [hnil] at this; exact absurd this (by simp)
      · obtain ⟨l, hl⟩ := hf.mpr ⟨i, hi⟩
        rw [hnil] at hl; exact absurd hl (by simp)
  by_cases hn : ws = []
  · obtain ⟨r, hr⟩ := key.1 hn
    refine ⟨⟨fun h => ?_, fun h => ?_⟩, fun _ => ⟨r, hr⟩⟩
    · rw [hr] at h; cases h
    · exact absurd hn (hws.mpr h)
  · exact ⟨⟨fun _ => hws.mp hn, fun _ => key.2 hn⟩, fun h => absurd (key.2 hn) h⟩

/-- Below level 1 nothing is checked unless the arrays are asked for, and then no warning is given (levels 0 and -1). -/
theorem C66_separation_silent (pi : K) (L : ℤ) (hL : L = 0 ∨ L = -1) (b : Bool) (ph ts : List K) :
    ∃ r, checkSeparation pi L b ph ts = .ok (r, []) ∧ (b = false → r = none) ∧
      (b = true → r.map (·.1) = some (diff (ph.map (· / 2)))) := by
  unfold checkSeparation
  cases b with
  | false => rw [if_pos ⟨by omega, rfl⟩]; exact ⟨_, rfl, fun _ => rfl, fun h => absurd h (by simp)⟩
  | true =>
    rw [if_neg (by simp)]
    dsimp only
    generalize (diff (ph.map (· / 2))).any (fun x => decide (x < pi)) = b1
    generalize (diff (ph.map (· / 2))).any (fun x => decide (|x - pi| < |x - 2 * pi|)) = b2
    generalize (List.any (0 :: List.zipWith (· / ·) ((diff (ph.map (· / 2))).drop 1) (diff (ph.map (· / 2))).dropLast) (fun x => decide (x > 3 / 2))) = b3
    rcases hL with rfl | rfl <;> cases b1 <;> cases b2 <;> cases b3 <;>
      exact ⟨_, rfl, fun h => absurd h (by simp), fun _ => rfl⟩

/-- The number of extrema dropped by the selection: a warning at level 1, an exception at level 2, exactly when more than half
of them are dropped; nothing below level 1. -/
theorem C66_dropped (original new : List ℕ) :
    (checkDropped 1 original new = .ok (.warn false) ↔ 2 * new.length < original.length) ∧
    (checkDropped 1 original new = .ok .silent ↔ original.length ≤ 2 * new.length) ∧
    (checkDropped 2 original new = .error .exception ↔ 2 * new.length < original.length) ∧
    (checkDropped 2 original new = .ok .silent ↔ original.length ≤ 2 * new.length) ∧
    ∀ L, L < 1 → checkDropped L original new = .ok .silent := by
  have hc : (2 * ((original.length : ℤ) - new.length) > original.length) ↔ 2 * new.length < original.length := by omega
  unfold checkDropped
  by_cases hd : 2 * new.length < original.length
  · rw [if_neg (by decide), if_pos (hc.mpr hd), if_neg (by decide), if_pos (hc.mpr hd)]
    refine ⟨by simp [debugMessage, hd], by simp [debugMessage, hd], by simp [debugMessage, hd], by simp [debugMessage, hd], ?_⟩
    intro L hL
    rw [if_pos hL]
  · rw [if_neg (by decide), if_neg (fun h => hd (hc.mp h)), if_neg (by decide), if_neg (fun h => hd (hc.mp h))]
    refine ⟨by simp [hd], by simp; omega, by simp [hd], by simp; omega, ?_⟩
    intro L hL
    rw [if_pos hL]

/-- Each of the three warnings occurs, and a regular sequence gives none. -/
example :
    ((checkSeparation (22 / 7 : ℚ) 1 false [0, 13, 16, 30] [0, 1, 2, 3]).toOption = some
      (some ([13 / 2, 3 / 2, 7], [0, 3 / 13, 14 / 3]), [.tooClose [2], .closerToPi, .tooFar [3]])) ∧
    ((checkSeparation (22 / 7 : ℚ) 1 false [0, 13, 26, 39] [0, 1, 2, 3]).toOption = some
      (some ([13 / 2, 13 / 2, 13 / 2], [0, 1, 1]), [])) := by
  decide +kernel

end GwEcc
