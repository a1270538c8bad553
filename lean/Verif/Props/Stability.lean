import Verif.Lemmas.Stability
import Verif.Props.Newtonian

/-!
# C88 Small errors of the data make small errors of the result

How much the reported eccentricity and mean anomaly can move when the frequencies at the extrema and the times of the
pericenters move (numerical noise, another resolution, another finder of extrema).
-/

set_option linter.unusedSectionVars false

namespace GwEcc

open Spec Real

/-! ## The formula -/

/-- The reported eccentricity changes by at most a third of the change of `log (ω_p / ω_a)`, for all frequencies. -/
theorem C88_eccentricity_lipschitz {wp wa wp' wa' : ℝ} (hp : 0 < wp) (ha : 0 < wa) (hp' : 0 < wp') (ha' : 0 < wa') :
    |eccFromOmega wp wa - eccFromOmega wp' wa'| ≤ 1 / 3 * |log (wp / wa) - log (wp' / wa')| :=
  ecc_lipschitz hp ha hp' ha'

/-- No smaller constant will do: near a circular orbit the eccentricity is a third of the logarithm, up to any factor
below one. -/
theorem C88_constant_sharp {c : ℝ} (h0 : 0 < c) (hc : c < 1 / 3) :
    ∃ wp wa, 0 < wa ∧ wa < wp ∧ c * |log (wp / wa) - log (wa / wa)| < |eccFromOmega wp wa - eccFromOmega wa wa| := by
  set e : ℝ := (4 - 12 * c) / 10 with he
  have e0 : 0 < e := by rw [he]; linarith
  have e1 : e < 2 / 5 := by rw [he]; linarith
  have hp : 0 < (1 + e) ^ 2 * (2 - e) := mul_pos (by positivity) (by linarith)
  have h1e : 0 < 1 - e := by linarith
  have ha : 0 < (1 - e) ^ 2 * (2 + e) := by positivity
  refine ⟨(1 + e) ^ 2 * (2 - e), (1 - e) ^ 2 * (2 + e), ha, ?_, ?_⟩
  · have : e ^ 2 < 1 := by nlinarith
    nlinarith [mul_pos e0 (by linarith : (0 : ℝ) < 3 - e ^ 2)]
  · have hecc := ecc_of_ratio (e := e) (by linarith) (by linarith)
    have hself : eccFromOmega ((1 - e) ^ 2 * (2 + e)) ((1 - e) ^ 2 * (2 + e)) = 0 := by
      unfold eccFromOmega; rw [(eOmega_eq_zero_iff ha ha).mpr rfl, et_zero]
    rw [hself, hecc, div_self ha.ne', log_one, sub_zero, sub_zero, abs_of_pos e0, ← logRatio_ecc hp ha, hecc]
    have hup := logRatio_slope_upper e0.le (by linarith : e < 1)
    have hlo := logRatio_slope (by linarith : (-1 : ℝ) < 0) e0.le (by linarith : e < 1)
    rw [logRatio_zero] at hup hlo
    rw [sub_zero, sub_zero] at hup hlo
    rw [abs_of_pos (by linarith)]
    have hsq : e ^ 2 < 2 / 5 * e := by nlinarith
    have hden : 12 * c < (1 - e ^ 2) * (4 - e ^ 2) := by
      have : 12 * c = 4 - 10 * e := by rw [he]; ring
      nlinarith [sq_nonneg (e ^ 2)]
    have hdpos : 0 < (1 - e ^ 2) * (4 - e ^ 2) := by linarith
    calc c * logRatio e ≤ c * (12 / ((1 - e ^ 2) * (4 - e ^ 2)) * e) := mul_le_mul_of_nonneg_left hup h0.le
      _ = (12 * c) / ((1 - e ^ 2) * (4 - e ^ 2)) * e := by ring
      _ < 1 * e := by
        apply mul_lt_mul_of_pos_right _ e0
        rw [div_lt_one hdpos]; exact hden
      _ = e := one_mul e

/-- In terms of relative errors: frequencies known up to a relative error `ε` at pericenter and apocenter give the
eccentricity up to `(2/3) ε / (1 - ε)`. -/
theorem C88_eccentricity_relative {wp wa wp' wa' ε : ℝ} (hp : 0 < wp) (ha : 0 < wa) (h0 : 0 ≤ ε) (h1 : ε < 1)
    (h : |wp' - wp| ≤ ε * wp) (h' : |wa' - wa| ≤ ε * wa) :
    |eccFromOmega wp' wa' - eccFromOmega wp wa| ≤ 2 / 3 * (ε / (1 - ε)) :=
  ecc_relative hp ha h0 h1 h h'

example : (0 : ℝ) < 9 ∧ (0 : ℝ) < 4 ∧ (0 : ℝ) ≤ 1 / 100 ∧ (1 / 100 : ℝ) < 1 ∧ |(9.05 : ℝ) - 9| ≤ 1 / 100 * 9 ∧
    |(3.98 : ℝ) - 4| ≤ 1 / 100 * 4 := by
  refine ⟨by norm_num, by norm_num, by norm_num, by norm_num, ?_, ?_⟩ <;> rw [abs_le] <;> constructor <;> norm_num

/-- Against the true value: when the frequencies used are within a relative error `ε` of those of a Newtonian binary of
eccentricity `E`, the reported eccentricity is within `(2/3) ε / (1 - ε)` of `E`. -/
theorem C88_newtonian_accuracy {E p : ℝ} {f : ℝ → ℝ} (hE : 0 ≤ E) (hE1 : E < 1) (hp : 0 < p) (orbit : KeplerOrbit E p f)
    {tp ta : ℝ} (htp : AtPericenter f tp) (hta : AtApocenter f ta) {ε wp wa : ℝ} (h0 : 0 ≤ ε) (h1 : ε < 1)
    (h : |wp - frequency (strain22 E p f) tp| ≤ ε * frequency (strain22 E p f) tp)
    (h' : |wa - frequency (strain22 E p f) ta| ≤ ε * frequency (strain22 E p f) ta) :
    |eccFromOmega wp wa - E| ≤ 2 / 3 * (ε / (1 - ε)) := by
  have hpos : ∀ t c, cos (f t) = c → (c = 1 ∨ c = -1) → 0 < frequency (strain22 E p f) t := by
    intro t c hc hcc
    rw [frequency_apsis hE hE1 hp orbit t c hc (by rcases hcc with rfl | rfl <;> norm_num)]
    have hs := Real.sqrt_pos.mpr hp
    have b1 : 0 < 1 + E * c := by rcases hcc with rfl | rfl <;> linarith
    have b2 : 0 < 2 + E * c := by rcases hcc with rfl | rfl <;> linarith
    positivity
  have key := ecc_relative (hpos tp 1 htp (Or.inl rfl)) (hpos ta (-1) hta (Or.inr rfl)) h0 h1 h h'
  rwa [C13_newtonian_limit hE hE1 hp orbit htp hta] at key

/-- The premises are met for every eccentricity, size and error: take frequencies that are too large by the factor
`1 + ε`. -/
example {E p ε : ℝ} (hE : 0 ≤ E) (hE1 : E < 1) (hp : 0 < p) :
    ∃ f tp ta wp, KeplerOrbit E p f ∧ AtPericenter f tp ∧ AtApocenter f ta ∧
      wp - frequency (strain22 E p f) tp = ε * frequency (strain22 E p f) tp := by
  obtain ⟨f, tp, ta, h1, h2, h3⟩ := C13_nonvacuous hE hE1 hp
  exact ⟨f, tp, ta, frequency (strain22 E p f) tp + ε * frequency (strain22 E p f) tp, h1, h2, h3, by ring⟩

/-! ## The mean anomaly -/

/-- When the pericenters move by at most `δ` and no orbit is shorter than `T`, the mean anomaly at a given time moves, on
the circle, by at most `2 π δ / T`; also when the time falls into another orbit. -/
theorem C88_mean_anomaly {K : Type} [Field K] [LinearOrder K] [IsStrictOrderedRing K] {pi : K} (hpi : 0 < pi) {l l' : List K}
    (hs : l.Pairwise (· < ·)) (hs' : l'.Pairwise (· < ·)) {δ T : K} (hδ : List.Forall₂ (fun a b => |a - b| ≤ δ) l l')
    (hT : 0 < T) (hgap : ∀ i a b, l'[i]? = some a → l'[i + 1]? = some b → T ≤ b - a) {x v v' : K} (hx : Within l x)
    (hx' : Within l' x) (hv : IsMeanAnomaly pi l x v) (hv' : IsMeanAnomaly pi l' x v') :
    ∃ k : ℤ, |v - v' - 2 * pi * k| ≤ 2 * pi * (δ / T) :=
  anomaly_stable hpi hs hs' hδ hT hgap hx hx' hv hv'

/-- A time that is just before a pericenter in one list and just after it in the other: the values are near `2π` and
near `0`, and `k = 1`. -/
example : IsMeanAnomaly (22 / 7 : ℚ) [0, 10, 20] (99 / 10) (22 / 7 * (99 / 50)) ∧
    IsMeanAnomaly (22 / 7 : ℚ) [0, 98 / 10, 20] (99 / 10) (22 / 7 * (1 / 51)) ∧
    |(22 / 7 * (99 / 50) : ℚ) - 22 / 7 * (1 / 51) - 2 * (22 / 7) * (1 : ℤ)| ≤ 2 * (22 / 7) * (1 / 5 / (98 / 10)) := by
  refine ⟨⟨?_, by norm_num⟩, ⟨?_, by norm_num⟩, by decide +kernel⟩
  · rintro a b ⟨h1, h2, i, hi, hj⟩
    match i, hi, hj with
    | 0, hi, hj => simp at hi hj; subst hi hj; norm_num
    | 1, hi, hj => simp at hi hj; subst hi hj; norm_num at h1
    | 2, hi, hj => simp at hj
    | n + 3, hi, hj => simp at hi
  · rintro a b ⟨h1, h2, i, hi, hj⟩
    match i, hi, hj with
    | 0, hi, hj => simp at hi hj; subst hi hj; norm_num at h2
    | 1, hi, hj => simp at hi hj; subst hi hj; norm_num
    | 2, hi, hj => simp at hj
    | n + 3, hi, hj => simp at hi

/-! ## Two measurements -/

section measurement

variable {K : Type} [Field K] [LinearOrder K] [IsStrictOrderedRing K]

/-- The curves through the frequencies at the extrema of two measurements agree up to a relative error `ε` at time `t`. -/
def Spec.CurvesAgree (ε : K) (e e' : Ext K) (o o' : Obj K) (ty : ExtType) (m m' : Meas K) (t : K) : Prop :=
  ∀ f f' w w', ExtremaCurve e o ty m.pericenters m.apocenters f → ExtremaCurve e' o' ty m'.pericenters m'.apocenters f' →
    f t = .ok w → f' t = .ok w' →
    0 < w ∧ |w' - w| ≤ ε * w

theorem returned_within [FloorRing K] {e : Ext K} {o : Obj K} {cache cache' : AvgCache K} {ret : Dict String (Val K)}
    {m : Meas K} (hd : o.domain = .time) (h : measureEcc e o cache = .ok (ret, some m, cache')) {vr : Val K}
    (hr : ret.get? "tref_out" = some vr) {t : K} (ht : t ∈ vr.atleast1d) :
    Within (m.pericenters.map fun i => o.t.getD i 0) t := by
  classical
  obtain ⟨v, h1, h2, _⟩ := C07_times_answered e o cache cache' ret m hd h
    (fun x => decide (Within m.tPeri x ∧ Within m.tApo x)) (fun x => decide_eq_true_iff)
  rw [hr] at h1
  cases h1
  rw [h2, List.mem_filter] at ht
  have hw := (of_decide_eq_true ht.2).1
  obtain ⟨p, a, lacking, _, ⟨hn, _⟩ | ⟨m', p', a', hmo, _, _, hm, _⟩⟩ := measureEcc_ok h
  · exact absurd hn (by simp)
  · injection hmo with hmo; subst hmo
    have hp := prepare_ok hm
    have e1 : m.tPeri = m.pericenters.map fun i => o.t.getD i 0 := by
      rw [hp.2.1, hp.2.2.2.1]; rfl
    rwa [← e1]

theorem measurement_stable [FloorRing K] {e e' : Ext K} {o o' : Obj K} {cache cache' c c' : AvgCache K}
    {ret ret' : Dict String (Val K)} {m m' : Meas K} (hd : o.domain = .time) (hd' : o'.domain = .time) (hpi : 0 < e.pi)
    (hpi' : e'.pi = e.pi) (hp : (m.pericenters.map fun i => o.t.getD i 0).Pairwise (· < ·))
    (hp' : (m'.pericenters.map fun i => o'.t.getD i 0).Pairwise (· < ·))
    (h : measureEcc e o cache = .ok (ret, some m, c)) (h' : measureEcc e' o' cache' = .ok (ret', some m', c'))
    {vr : Val K} (hr : ret.get? "tref_out" = some vr) (hr' : ret'.get? "tref_out" = some vr) {ε B δ T : K}
    (hE : ∀ wp wa wp' wa', 0 < wp → 0 < wa → |wp' - wp| ≤ ε * wp → |wa' - wa| ≤ ε * wa →
      |e'.eccOf wp' wa' - e.eccOf wp wa| ≤ B)
    (hcurve : ∀ t ∈ vr.atleast1d, CurvesAgree ε e e' o o' .pericenters m m' t ∧
      CurvesAgree ε e e' o o' .apocenters m m' t)
    (hδ : List.Forall₂ (fun i j => |o.t.getD i 0 - o'.t.getD j 0| ≤ δ) m.pericenters m'.pericenters) (hT : 0 < T)
    (hgap : ∀ n i j, m'.pericenters[n]? = some i → m'.pericenters[n + 1]? = some j → T ≤ o'.t.getD j 0 - o'.t.getD i 0) :
    ∃ ve ve' va va', ret.get? "eccentricity" = some ve ∧ ret'.get? "eccentricity" = some ve' ∧
      ret.get? "mean_anomaly" = some va ∧ ret'.get? "mean_anomaly" = some va' ∧
      List.Forall₂ (fun x x' => |x' - x| ≤ B) ve.atleast1d ve'.atleast1d ∧
      List.Forall₂ (fun x x' => ∃ k : ℤ, |x - x' - 2 * e.pi * k| ≤ 2 * e.pi * (δ / T)) va.atleast1d va'.atleast1d := by
  obtain ⟨fP, fA, ve, va, vr1, ts, a1, a2, a3, a4, a5, a6, a7, a8, _⟩ :=
    C75_returned_numbers e o cache c ret m hpi hp h
  obtain ⟨fP', fA', ve', va', vr2, ts', b1, b2, b3, b4, b5, b6, b7, b8, _⟩ :=
    C75_returned_numbers e' o' cache' c' ret' m' (hpi'.symm ▸ hpi) hp' h'
  rw [hd] at a5
  rw [hd'] at b5
  have e1 : vr1 = vr := Option.some.inj (a5.symm.trans hr)
  have e2 : vr2 = vr := Option.some.inj (b5.symm.trans hr')
  have t1 := a8 hd
  have t2 := b8 hd'
  rw [e1] at t1
  rw [e2] at t2
  rw [← t1] at a6 a7
  rw [← t2] at b6 b7
  refine ⟨ve, ve', va, va', a3, b3, a4, b4, ?_, ?_⟩
  · have key : ∀ (l : List K) (r r' : List K), (∀ t ∈ l, t ∈ vr.atleast1d) →
        List.Forall₂ (fun t x => ∃ wp wa, fP t = .ok wp ∧ fA t = .ok wa ∧ x = e.eccOf wp wa) l r →
        List.Forall₂ (fun t x => ∃ wp wa, fP' t = .ok wp ∧ fA' t = .ok wa ∧ x = e'.eccOf wp wa) l r' →
        List.Forall₂ (fun x x' => |x' - x| ≤ B) r r' := by
      intro l
      induction l with
      | nil => intro r r' _ h1 h2; cases h1; cases h2; exact .nil
      | cons t l ih =>
        intro r r' hm h1 h2
        cases h1 with
        | cons x1 x2 =>
          cases h2 with
          | cons y1 y2 =>
            refine .cons ?_ (ih _ _ (fun s hs => hm s (List.mem_cons_of_mem _ hs)) x2 y2)
            obtain ⟨wp, wa, p1, p2, rfl⟩ := x1
            obtain ⟨wp', wa', p3, p4, rfl⟩ := y1
            obtain ⟨c1, c2⟩ := hcurve t (hm t (by simp))
            obtain ⟨d1, d2⟩ := c1 fP fP' wp wp' a1 b1 p1 p3
            obtain ⟨d3, d4⟩ := c2 fA fA' wa wa' a2 b2 p2 p4
            exact hE wp wa wp' wa' d1 d3 d2 d4
    exact key _ _ _ (fun _ h => h) a6 b6
  · have hδ' : List.Forall₂ (fun a b => |a - b| ≤ δ) (m.pericenters.map fun i => o.t.getD i 0)
        (m'.pericenters.map fun i => o'.t.getD i 0) := by
      rw [List.forall₂_map_left_iff, List.forall₂_map_right_iff]; exact hδ
    have hgap' : ∀ i a b, (m'.pericenters.map fun i => o'.t.getD i 0)[i]? = some a →
        (m'.pericenters.map fun i => o'.t.getD i 0)[i + 1]? = some b → T ≤ b - a := by
      intro i a b ha hb
      rw [List.getElem?_map] at ha hb
      obtain ⟨n, hn, rfl⟩ := Option.map_eq_some_iff.mp ha
      obtain ⟨k, hk, rfl⟩ := Option.map_eq_some_iff.mp hb
      exact hgap i n k hn hk
    have key : ∀ (l : List K) (r r' : List K), (∀ t ∈ l, t ∈ vr.atleast1d) →
        List.Forall₂ (fun t x => IsMeanAnomaly e.pi (m.pericenters.map fun i => o.t.getD i 0) t x) l r →
        List.Forall₂ (fun t x => IsMeanAnomaly e'.pi (m'.pericenters.map fun i => o'.t.getD i 0) t x) l r' →
        List.Forall₂ (fun x x' => ∃ k : ℤ, |x - x' - 2 * e.pi * k| ≤ 2 * e.pi * (δ / T)) r r' := by
      intro l
      induction l with
      | nil => intro r r' _ h1 h2; cases h1; cases h2; exact .nil
      | cons t l ih =>
        intro r r' hm h1 h2
        cases h1 with
        | cons x1 x2 =>
          cases h2 with
          | cons y1 y2 =>
            refine .cons ?_ (ih _ _ (fun s hs => hm s (List.mem_cons_of_mem _ hs)) x2 y2)
            rw [hpi'] at y1
            exact anomaly_stable hpi hp hp' hδ' hT hgap' (returned_within hd h hr (hm t (by simp)))
              (returned_within hd' h' hr' (hm t (by simp))) x1 y1
    exact key _ _ _ (fun _ h => h) a7 b7

end measurement

/-- Two measurements at the same times (of the same binary with other noise, another resolution, or by another method):
if at every reference time the two pericenter curves and the two apocenter curves agree up to a relative error `ε`, the
eccentricities differ by at most `(2/3) ε / (1 - ε)`; if the pericenters used are the same up to `δ` and no orbit is
shorter than `T`, the mean anomalies differ on the circle by at most `2 π δ / T`. -/
theorem C88_two_measurements {e e' : Ext ℝ} {o o' : Obj ℝ} {cache cache' c c' : AvgCache ℝ}
    {ret ret' : Dict String (Val ℝ)} {m m' : Meas ℝ} (hecc : e.eccOf = eccFromOmega) (hecc' : e'.eccOf = eccFromOmega)
    (hpi : e.pi = π) (hpi' : e'.pi = π) (hd : o.domain = .time) (hd' : o'.domain = .time)
    (hp : (m.pericenters.map fun i => o.t.getD i 0).Pairwise (· < ·))
    (hp' : (m'.pericenters.map fun i => o'.t.getD i 0).Pairwise (· < ·))
    (h : measureEcc e o cache = .ok (ret, some m, c)) (h' : measureEcc e' o' cache' = .ok (ret', some m', c'))
    {vr : Val ℝ} (hr : ret.get? "tref_out" = some vr) (hr' : ret'.get? "tref_out" = some vr) {ε δ T : ℝ} (h0 : 0 ≤ ε)
    (h1 : ε < 1) (hcurve : ∀ t ∈ vr.atleast1d, CurvesAgree ε e e' o o' .pericenters m m' t ∧
      CurvesAgree ε e e' o o' .apocenters m m' t)
    (hδ : List.Forall₂ (fun i j => |o.t.getD i 0 - o'.t.getD j 0| ≤ δ) m.pericenters m'.pericenters) (hT : 0 < T)
    (hgap : ∀ n i j, m'.pericenters[n]? = some i → m'.pericenters[n + 1]? = some j → T ≤ o'.t.getD j 0 - o'.t.getD i 0) :
    ∃ ve ve' va va', ret.get? "eccentricity" = some ve ∧ ret'.get? "eccentricity" = some ve' ∧
      ret.get? "mean_anomaly" = some va ∧ ret'.get? "mean_anomaly" = some va' ∧
      List.Forall₂ (fun x x' => |x' - x| ≤ 2 / 3 * (ε / (1 - ε))) ve.atleast1d ve'.atleast1d ∧
      List.Forall₂ (fun x x' => ∃ k : ℤ, |x - x' - 2 * π * k| ≤ 2 * π * (δ / T)) va.atleast1d va'.atleast1d := by
  have := measurement_stable hd hd' (hpi ▸ pi_pos) (hpi'.trans hpi.symm) hp hp' h h' hr hr' (ε := ε)
    (B := 2 / 3 * (ε / (1 - ε))) (by
      intro wp wa wp' wa' a1 a2 a3 a4
      rw [hecc, hecc']
      exact ecc_relative a1 a2 h0 h1 a3 a4) hcurve hδ hT hgap
  rwa [hpi] at this

/-- Two different runs over the rationals that return the same times: the second waveform has frequencies larger by one
percent.  The pericenters are those of `Demo.obj`. -/
example : (measureEcc Demo.ext Demo.obj none).map (fun r => (r.1.get? "tref_out", r.2.1.map (·.pericenters))) =
    (measureEcc Demo.ext { Demo.obj with omega := Demo.obj.omega.map (· * (101 / 100)) } none).map
      (fun r => (r.1.get? "tref_out", r.2.1.map (·.pericenters))) ∧
    (measureEcc Demo.ext Demo.obj none).map (fun r => (r.1.get? "tref_out", r.2.1.map (·.pericenters))) =
      .ok (some (.array [5, 13]), some [2, 6, 10, 14]) := by decide +kernel

/-- All the premises hold together, for every eccentricity: the run on Newtonian data, against itself. -/
example {E q : ℝ} (hE : 0 ≤ E) (hE1 : E < 1) (hq : 0 < q) : ∃ (e : Ext ℝ) (o : Obj ℝ) (ret : Dict String (Val ℝ)) (m : Meas ℝ)
    (vr : Val ℝ), e.eccOf = eccFromOmega ∧ e.pi = π ∧ o.domain = .time ∧ measureEcc e o none = .ok (ret, some m, none) ∧
      ret.get? "tref_out" = some vr ∧ vr.atleast1d ≠ [] := by
  obtain ⟨f, φ, times, p, a, h1, h2, h3, h4, h5, h6, h7, h8, h9, h10⟩ := NewtonDemo.premises hE hE1 hq "spline"
  obtain ⟨ret, m, ve, va, vr, T, r1, r2, r3, r4, r5, r6, r7, r8, r9⟩ :=
    C78_newtonian_measurement (o := NewtonDemo.obj E q f φ times "spline") hE hE1 hq h1 h2
    (e := NewtonDemo.ext times f) rfl rfl (NewtonDemo.keeps times f _) h3 rfl rfl rfl rfl (Or.inr rfl)
    (by simp [NewtonDemo.obj]) (by simp [NewtonDemo.obj]) (by simp [NewtonDemo.obj]) (by simp [NewtonDemo.obj])
    none p a h4 h5 h6 h7 h8 h9 h10
  obtain ⟨x, hx, hcx⟩ := h10
  have hmem := (r7 x).mpr ⟨hx, hcx⟩
  exact ⟨_, _, ret, m, vr, rfl, rfl, rfl, r1, r5, fun h => by rw [h] at hmem; cases hmem⟩

end GwEcc
