import Verif.Model.Measure
import Verif.Lemmas.Extrema
import Verif.Lemmas.ExtremaEnds
import Verif.Lemmas.Dict
import Verif.Lemmas.Postprocess
import Verif.Lemmas.Utils
import Verif.Spec.Measure

set_option linter.unusedSectionVars false

namespace GwEcc

section

variable {K : Type} [Field K] [LinearOrder K]

theorem mapM_py_length {α β : Type} {f : α → Py β} : ∀ {l : List α} {r : List β}, l.mapM f = .ok r → r.length = l.length
  | [], r, h => by
    rw [List.mapM_nil, pure_eq_ok, Except.ok.injEq] at h; subst h; rfl
  | a :: l, r, h => by
    rw [List.mapM_cons] at h
    obtain ⟨b, _, h⟩ := bind_ok h
    obtain ⟨bs, hbs, h⟩ := bind_ok h
    rw [pure_eq_ok, Except.ok.injEq] at h; subst h
    simp [mapM_py_length hbs]

theorem mapM_py_get {α β : Type} {f : α → Py β} : ∀ {l : List α} {r : List β}, l.mapM f = .ok r →
    ∀ i (h : i < l.length) (h' : i < r.length), f l[i] = .ok r[i]
  | [], _, _, i, h, _ => by simp at h
  | a :: l, r, hm, i, h, h' => by
    rw [List.mapM_cons] at hm
    obtain ⟨b, hb, hm⟩ := bind_ok hm
    obtain ⟨bs, hbs, hm⟩ := bind_ok hm
    rw [pure_eq_ok, Except.ok.injEq] at hm; subst hm
    cases i with
    | zero => exact hb
    | succ i => simpa using mapM_py_get hbs i (by simpa using h) (by simpa using h')

theorem mapM_py_congr {α β : Type} {f g : α → Py β} {l : List α} (h : ∀ a ∈ l, f a = g a) : l.mapM f = l.mapM g := by
  induction l with
  | nil => rfl
  | cons a l ih =>
    rw [List.mapM_cons, List.mapM_cons, h a (by simp), ih (fun b hb => h b (by simp [hb]))]

theorem checkInputLimits_ok_iff (vals : List K) (lo hi : K) :
    checkInputLimits vals lo hi = .ok () ↔ ∀ x ∈ vals, lo ≤ x ∧ x ≤ hi := by
  unfold checkInputLimits
  constructor
  · intro h
    split at h
    · exact absurd h (by simp)
    · split at h
      · exact absurd h (by simp)
      · rename_i h1 h2
        simp only [List.any_eq_true, decide_eq_true_eq, not_exists, not_and, not_lt] at h1 h2
        exact fun x hx => ⟨h2 x hx, h1 x hx⟩
  · intro h
    rw [if_neg, if_neg]
    · simp only [List.any_eq_true, decide_eq_true_eq, not_exists, not_and, not_lt]
      exact fun x hx => (h x hx).1
    · simp only [List.any_eq_true, decide_eq_true_eq, not_exists, not_and, not_lt]
      exact fun x hx => (h x hx).2

theorem checkInputLimits_error {vals : List K} {lo hi : K} (h : ¬ ∀ x ∈ vals, lo ≤ x ∧ x ≤ hi) :
    checkInputLimits vals lo hi = .error .exception := by
  have h' := mt (checkInputLimits_ok_iff vals lo hi).mp h
  unfold checkInputLimits at h' ⊢
  split
  · rfl
  · split
    · rfl
    · rename_i h1 h2; rw [if_neg h1, if_neg h2] at h'; exact absurd rfl h'

/-! ### inversion of the pipeline -/

theorem prepare_ok {e : Ext K} {o : Obj K} {p a : List ℕ} {m : Meas K} (h : prepare e o p a = .ok m) :
    m.o = o ∧ m.pericenters = p ∧ m.apocenters = a ∧ m.tPeri = takeAt o.t p ∧ m.tApo = takeAt o.t a ∧
    2 ≤ p.length ∧ 2 ≤ a.length ∧
    (∃ p0 p1 a0 a1, m.tPeri.head? = some p0 ∧ m.tPeri.getLast? = some p1 ∧ m.tApo.head? = some a0 ∧
      m.tApo.getLast? = some a1 ∧ m.tmin = max p0 a0 ∧ m.tmax = min p1 a1) ∧
    m.tChecks = o.dataT.filter (fun x => decide (m.tmin ≤ x ∧ x ≤ m.tmax)) ∧
    extremaInterpolant e o .pericenters p a m.tChecks = .ok m.interpP ∧
    extremaInterpolant e o .apocenters p a m.tChecks = .ok m.interpA := by
  unfold prepare at h
  obtain ⟨p1, hp1, h⟩ := bind_ok h
  obtain ⟨a1, ha1, h⟩ := bind_ok h
  obtain ⟨p0, hp0, h⟩ := bind_ok h
  obtain ⟨a0, ha0, h⟩ := bind_ok h
  obtain ⟨fP, hfP, h⟩ := bind_ok h
  obtain ⟨fA, hfA, h⟩ := bind_ok h
  rw [pure_eq_ok, Except.ok.injEq] at h; subst h
  have two : ∀ {ty ts f}, extremaInterpolant e o ty p a ts = .ok f → 2 ≤ (ty.pick p a).length := by
    intro ty ts f hf
    by_contra hc
    unfold extremaInterpolant at hf
    rw [if_neg hc] at hf
    exact absurd hf (by simp)
  refine ⟨rfl, rfl, rfl, rfl, rfl, two hfP, two hfA, ⟨p0, p1, a0, a1, ?_, ?_, ?_, ?_, rfl, rfl⟩, rfl, hfP, hfA⟩
  · obtain ⟨hi, rfl⟩ := pyGet_ok hp0
    rw [List.head?_eq_getElem?, List.getElem?_eq_getElem hi]
  · obtain ⟨hne, rfl⟩ := pyLast_ok hp1
    exact List.getLast?_eq_some_getLast hne
  · obtain ⟨hi, rfl⟩ := pyGet_ok ha0
    rw [List.head?_eq_getElem?, List.getElem?_eq_getElem hi]
  · obtain ⟨hne, rfl⟩ := pyLast_ok ha1
    exact List.getLast?_eq_some_getLast hne

/-- The window `[tmin, tmax]` in terms of the extrema. -/
theorem prepare_window {e : Ext K} {o : Obj K} {p a : List ℕ} {m : Meas K} (h : prepare e o p a = .ok m) (x : K) :
    (m.tmin ≤ x ∧ x ≤ m.tmax) ↔ Spec.Within m.tPeri x ∧ Spec.Within m.tApo x := by
  obtain ⟨_, _, _, _, _, _, _, ⟨p0, p1, a0, a1, h1, h2, h3, h4, h5, h6⟩, _⟩ := prepare_ok h
  rw [h5, h6, max_le_iff, le_min_iff]
  constructor
  · rintro ⟨⟨u, v⟩, ⟨w, z⟩⟩
    exact ⟨⟨p0, p1, h1, h2, u, w⟩, ⟨a0, a1, h3, h4, v, z⟩⟩
  · rintro ⟨⟨q0, q1, k1, k2, u, w⟩, ⟨b0, b1, k3, k4, v, z⟩⟩
    rw [h1] at k1; rw [h2] at k2; rw [h3] at k3; rw [h4] at k4
    injection k1 with k1; injection k2 with k2; injection k3 with k3; injection k4 with k4
    subst k1 k2 k3 k4
    exact ⟨⟨u, v⟩, ⟨w, z⟩⟩

/-- The dictionary returned. -/
def retDict (domain : Domain) (ecc ano ref : Val K) : Dict String (Val K) :=
  [("eccentricity", ecc), ("mean_anomaly", ano), (domain.key, ref)]

theorem makeReturn_ok {domain : Domain} {s : Bool} {ecc ano ref : List K} {ret : Dict String (Val K)}
    (h : makeReturn domain s ecc ano ref = .ok ret) :
    ∃ ve va vr, ret = retDict domain ve va vr ∧
      ve.isScalar = s ∧ va.isScalar = s ∧ vr.isScalar = s ∧
      ve.atleast1d = ecc ∧ va.atleast1d = ano ∧
      (ref.length = ecc.length → vr.atleast1d = ref) := by
  unfold makeReturn at h
  obtain ⟨⟨ve, va, vr⟩, hv, h⟩ := bind_ok h
  have hret : ret = retDict domain ve va vr := by
    cases domain <;> simp only [pure_eq_ok, Except.ok.injEq] at h <;> subst h <;>
      simp [retDict, Dict.set, Domain.key]
  refine ⟨ve, va, vr, hret, ?_⟩
  cases s with
  | false =>
    simp only [Bool.false_eq_true, if_false, pure_eq_ok, Except.ok.injEq, Prod.mk.injEq] at hv
    obtain ⟨rfl, rfl, rfl⟩ := hv
    exact ⟨rfl, rfl, rfl, rfl, rfl, fun _ => rfl⟩
  | true =>
    simp only [if_true] at hv
    split at hv
    · exact absurd hv (by simp)
    · split at hv
      · exact absurd hv (by simp)
      · rename_i h1 h2
        obtain ⟨e0, he0, hv⟩ := bind_ok hv
        obtain ⟨a0, ha0, hv⟩ := bind_ok hv
        obtain ⟨r0, hr0, hv⟩ := bind_ok hv
        simp only [pure_eq_ok, Except.ok.injEq, Prod.mk.injEq] at hv
        obtain ⟨rfl, rfl, rfl⟩ := hv
        have one : ∀ {l : List K} {x : K}, l.length = 1 → pyGet l 0 = .ok x → [x] = l := by
          intro l x hl hx
          obtain ⟨_, rfl⟩ := pyGet_ok hx
          match l, hl with
          | [y], _ => rfl
        exact ⟨rfl, rfl, rfl, one (not_not.mp h1) he0, one (not_not.mp h2) ha0,
          fun hl => one (hl.trans (not_not.mp h1)) hr0⟩

theorem computeEccentricity_length {e : Ext K} {m : Meas K} {ts r : List K}
    (h : computeEccentricity e m ts = .ok r) : r.length = ts.length := by
  unfold computeEccentricity at h
  obtain ⟨_, _, h⟩ := bind_ok h
  obtain ⟨wp, hwp, h⟩ := bind_ok h
  obtain ⟨wa, hwa, h⟩ := bind_ok h
  rw [pure_eq_ok, Except.ok.injEq] at h; subst h
  simp [mapM_py_length hwp, mapM_py_length hwa]

theorem computeMeanAnomaly_length [FloorRing K] {e : Ext K} {m : Meas K} {ts r : List K}
    (h : computeMeanAnomaly e m ts = .ok r) : r.length = ts.length := by
  unfold computeMeanAnomaly at h
  obtain ⟨_, _, h⟩ := bind_ok h
  obtain ⟨v, hv, h⟩ := bind_ok h
  rw [pure_eq_ok, Except.ok.injEq] at h; subst h
  simp [mapM_py_length hv]

theorem evaluate_ok [FloorRing K] {e : Ext K} {m : Meas K} {cache cache' : AvgCache K} {ret : Dict String (Val K)}
    (h : evaluate e m cache = .ok (ret, cache')) :
    ∃ trefIn fOut trefOut ecc ano,
      referenceTimes e m cache = .ok (trefIn, fOut, cache') ∧
      trefOut = trefIn.filter (fun x => decide (x ≤ m.tmax ∧ m.tmin ≤ x)) ∧
      trefOut ≠ [] ∧ (m.o.domain = .frequency → fOut.length = trefOut.length) ∧
      computeEccentricity e m trefOut = .ok ecc ∧ computeMeanAnomaly e m trefOut = .ok ano ∧
      (∃ p0 p1 t0 t1, m.tPeri.head? = some p0 ∧ m.tPeri.getLast? = some p1 ∧ trefOut.head? = some t0 ∧
        trefOut.getLast? = some t1 ∧ p0 ≤ t0 ∧ t1 ≤ p1) ∧
      makeReturn m.o.domain m.o.refIn.isScalar ecc ano
        (m.o.domain.pick trefOut fOut) = .ok ret := by
  unfold evaluate at h
  obtain ⟨⟨trefIn, fOut, c⟩, hr, h⟩ := bind_ok h
  simp only at h
  set trefOut := trefIn.filter (fun x => decide (x ≤ m.tmax ∧ m.tmin ≤ x)) with htr
  split at h
  · exact absurd h (by simp)
  · rename_i hlen
    split at h
    · obtain ⟨_, _, h⟩ := bind_ok h
      exact absurd h (by simp)
    · rename_i hne
      obtain ⟨t0, ht0, h⟩ := bind_ok h
      obtain ⟨t1, ht1, h⟩ := bind_ok h
      obtain ⟨p0, hp0, h⟩ := bind_ok h
      obtain ⟨p1, hp1, h⟩ := bind_ok h
      split at h
      · exact absurd h (by simp)
      · rename_i hrange
        obtain ⟨ecc, hecc, h⟩ := bind_ok h
        obtain ⟨ano, hano, h⟩ := bind_ok h
        obtain ⟨_, _, h⟩ := bind_ok h
        obtain ⟨_, _, h⟩ := bind_ok h
        obtain ⟨ret', hret, h⟩ := bind_ok h
        rw [pure_eq_ok, Except.ok.injEq, Prod.mk.injEq] at h
        obtain ⟨rfl, rfl⟩ := h
        push Not at hrange
        refine ⟨trefIn, fOut, trefOut, ecc, ano, hr, rfl, ?_, ?_, hecc, hano, ⟨p0, p1, t0, t1, ?_, ?_, ?_, ?_, hrange⟩,
          hret⟩
        · intro hc; rw [hc] at hne; exact hne rfl
        · intro hf
          by_contra hc
          exact hlen ⟨hf, hc⟩
        · obtain ⟨hi, rfl⟩ := pyGet_ok hp0
          rw [List.head?_eq_getElem?, List.getElem?_eq_getElem hi]
        · obtain ⟨hn, rfl⟩ := pyLast_ok hp1
          exact List.getLast?_eq_some_getLast hn
        · obtain ⟨hi, rfl⟩ := pyGet_ok ht0
          rw [List.head?_eq_getElem?, List.getElem?_eq_getElem hi]
        · obtain ⟨hn, rfl⟩ := pyLast_ok ht1
          exact List.getLast?_eq_some_getLast hn

theorem frefBounds_ok {e : Ext K} {m : Meas K} {cache cache' : AvgCache K} {method : Option String} {lo hi : K}
    (h : frefBounds e m cache method = .ok ((lo, hi), cache')) :
    ∃ avg mn mx, (cache = some avg ∨ (cache = none ∧ omegaAverage e m method = .ok avg)) ∧ cache' = some avg ∧
      npMin avg.2 = .ok mn ∧ npMax avg.2 = .ok mx ∧ lo = mn / 2 / e.pi ∧ hi = mx / 2 / e.pi ∧
      (m.o.useOnly = true → ∃ out, debugMessage m.o.level false = .ok out) := by
  unfold frefBounds at h
  obtain ⟨out, hout, h⟩ := bind_ok h
  obtain ⟨avg, havg, h⟩ := bind_ok h
  obtain ⟨mn, hmn, h⟩ := bind_ok h
  obtain ⟨mx, hmx, h⟩ := bind_ok h
  simp only [pure_eq_ok, Except.ok.injEq, Prod.mk.injEq] at h
  obtain ⟨⟨rfl, rfl⟩, rfl⟩ := h
  refine ⟨avg, mn, mx, ?_, rfl, hmn, hmx, rfl, rfl, ?_⟩
  · cases cache with
    | some c => simp only [pure_eq_ok, Except.ok.injEq] at havg; left; rw [havg]
    | none => right; exact ⟨rfl, havg⟩
  · intro hu
    rw [if_pos hu] at hout
    exact ⟨out, hout⟩

theorem frefOut_ok {e : Ext K} {m : Meas K} {cache cache' : AvgCache K} {frefIn out : List K} {method : String}
    (h : frefOut e m cache frefIn method = .ok (out, cache')) :
    ∃ lo hi, frefBounds e m cache (some method) = .ok ((lo, hi), cache') ∧
      out = frefIn.filter (fun f => decide (lo ≤ f ∧ f < hi)) ∧ out ≠ [] := by
  unfold frefOut at h
  obtain ⟨⟨⟨lo, hi⟩, c⟩, hb, h⟩ := bind_ok h
  simp only at h
  split at h
  · obtain ⟨_, _, h⟩ := bind_ok h
    exact absurd h (by simp)
  · rename_i hne
    simp only [pure_eq_ok, Except.ok.injEq, Prod.mk.injEq] at h
    obtain ⟨rfl, rfl⟩ := h
    exact ⟨lo, hi, hb, rfl, fun hc => hne (by rw [hc]; rfl)⟩

theorem trefFromFref_ok {e : Ext K} {m : Meas K} {cache cache' : AvgCache K} {frefIn tref fOut : List K}
    (h : trefFromFref e m cache frefIn = .ok ((tref, fOut), cache')) :
    m.o.avgMethod ∈ averagingMethods ∧ ∃ c ts w, frefOut e m cache frefIn m.o.avgMethod = .ok (fOut, c) ∧
      omegaAverage e m (some m.o.avgMethod) = .ok (ts, w) ∧ cache' = some (ts, w) ∧
      checkAverageIncreasing w = .ok () ∧
      interpolate e.tol e.eval fOut (w.map (· / (2 * e.pi))) ts false .spline m.o.generalKw true = .ok tref := by
  unfold trefFromFref at h
  split at h
  · rename_i hm
    obtain ⟨⟨f, c⟩, hf, h⟩ := bind_ok h
    obtain ⟨⟨ts, w⟩, hw, h⟩ := bind_ok h
    obtain ⟨u, hc, h⟩ := bind_ok h
    obtain ⟨tr, hi, h⟩ := bind_ok h
    obtain ⟨_, _, h⟩ := bind_ok h
    simp only [pure_eq_ok, Except.ok.injEq, Prod.mk.injEq] at h
    obtain ⟨⟨rfl, rfl⟩, rfl⟩ := h
    exact ⟨hm, c, ts, w, hf, hw, rfl, hc, hi⟩
  · exact absurd h (by simp)

/-- At debug level 2 the times of frequencies are only accepted when they increase. -/
theorem trefFromFref_strict [IsStrictOrderedRing K] {e : Ext K} {m : Meas K} {cache cache' : AvgCache K} {frefIn tref fOut : List K}
    (hl : m.o.level = 2) (h : trefFromFref e m cache frefIn = .ok ((tref, fOut), cache')) : tref.Pairwise (· < ·) := by
  unfold trefFromFref at h
  split at h
  · obtain ⟨_, _, h⟩ := bind_ok h
    obtain ⟨_, _, h⟩ := bind_ok h
    obtain ⟨_, _, h⟩ := bind_ok h
    obtain ⟨tr, _, h⟩ := bind_ok h
    obtain ⟨_, hm, h⟩ := bind_ok h
    simp only [pure_eq_ok, Except.ok.injEq, Prod.mk.injEq] at h
    obtain ⟨⟨rfl, _⟩, _⟩ := h
    split at hm
    · rw [hl] at hm; cases hm
    · rename_i hn
      rw [← diff_pos_iff]
      intro d hd
      by_contra hc
      exact hn (List.any_eq_true.2 ⟨d, hd, decide_eq_true (not_lt.1 hc)⟩)
  · exact absurd h (by simp)

theorem referenceTimes_time {e : Ext K} {m : Meas K} {cache cache' : AvgCache K} {tref fOut : List K}
    (hd : m.o.domain = .time) (h : referenceTimes e m cache = .ok (tref, fOut, cache')) :
    tref = m.o.refIn.atleast1d := by
  unfold referenceTimes at h
  rw [hd] at h
  simp only [pure_eq_ok, Except.ok.injEq, Prod.mk.injEq] at h
  exact h.1.symm

theorem referenceTimes_frequency {e : Ext K} {m : Meas K} {cache cache' : AvgCache K} {tref fOut : List K}
    (hd : m.o.domain = .frequency) (h : referenceTimes e m cache = .ok (tref, fOut, cache')) :
    trefFromFref e m cache m.o.refIn.atleast1d = .ok ((tref, fOut), cache') := by
  unfold referenceTimes at h
  rw [hd] at h
  simp only at h
  obtain ⟨⟨⟨a, b⟩, c⟩, h1, h⟩ := bind_ok h
  simp only [pure_eq_ok, Except.ok.injEq, Prod.mk.injEq] at h
  obtain ⟨rfl, rfl, rfl⟩ := h
  exact h1

theorem checkNumExtrema_ok {e : Ext K} {o : Obj K} {ext : List ℕ} {b : Bool} (h : checkNumExtrema e o ext = .ok b) :
    (b = false ∧ 2 ≤ ext.length) ∨ (b = true ∧ ext.length < 2 ∧ o.returnZero = true ∧
      ∃ first last, o.phase.head? = some first ∧ o.phase.getLast? = some last ∧ (last - first) / (4 * e.pi) > 5) := by
  unfold checkNumExtrema at h
  split at h
  · rename_i hlt
    obtain ⟨last, hl, h⟩ := bind_ok h
    obtain ⟨first, hf, h⟩ := bind_ok h
    simp only at h
    split at h
    · rename_i hc
      simp only [Bool.and_eq_true, decide_eq_true_eq] at hc
      obtain ⟨_, _, h⟩ := bind_ok h
      rw [pure_eq_ok, Except.ok.injEq] at h; subst h
      right
      refine ⟨by simpa using hc.1, hlt, hc.2, first, last, ?_, ?_, hc.1⟩
      · obtain ⟨hi, rfl⟩ := pyGet_ok hf
        rw [List.head?_eq_getElem?, List.getElem?_eq_getElem hi]
      · obtain ⟨hn, rfl⟩ := pyLast_ok hl
        exact List.getLast?_eq_some_getLast hn
    · exact absurd h (by simp)
  · rename_i hlt
    rw [pure_eq_ok, Except.ok.injEq] at h; subst h
    left; exact ⟨rfl, by omega⟩

theorem measureEcc_ok [FloorRing K] {e : Ext K} {o : Obj K} {cache cache' : AvgCache K} {ret : Dict String (Val K)}
    {mo : Option (Meas K)} (h : measureEcc e o cache = .ok (ret, mo, cache')) :
    ∃ p a lacking, findBoth e o = .ok (p, a, lacking) ∧
      ((mo = none ∧ cache' = cache ∧ (lacking && o.returnZero) = true ∧ setToZero o = .ok ret) ∨
       (∃ m p' a', mo = some m ∧ (lacking && o.returnZero) = false ∧ settleExtrema e o p a = .ok (p', a') ∧
        prepare e o p' a' = .ok m ∧ evaluate e m cache = .ok (ret, cache'))) := by
  unfold measureEcc at h
  obtain ⟨⟨p, a, lacking⟩, hf, h⟩ := bind_ok h
  refine ⟨p, a, lacking, hf, ?_⟩
  simp only at h
  split at h
  · rename_i hc
    obtain ⟨r, hr, h⟩ := bind_ok h
    simp only [pure_eq_ok, Except.ok.injEq, Prod.mk.injEq] at h
    obtain ⟨rfl, rfl, rfl⟩ := h
    exact Or.inl ⟨rfl, rfl, hc, hr⟩
  · rename_i hc
    obtain ⟨⟨p', a'⟩, hs, h⟩ := bind_ok h
    obtain ⟨m, hm, h⟩ := bind_ok h
    obtain ⟨⟨r, c⟩, hr, h⟩ := bind_ok h
    simp only [pure_eq_ok, Except.ok.injEq, Prod.mk.injEq] at h
    obtain ⟨rfl, rfl, rfl⟩ := h
    exact Or.inr ⟨m, p', a', rfl, by simpa using hc, hs, hm, hr⟩

end

end GwEcc
