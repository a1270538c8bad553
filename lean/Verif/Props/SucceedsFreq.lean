import Verif.Props.Succeeds
import Verif.Props.Spline

/-!
# C77: data on which a measurement at reference frequencies succeeds
-/

set_option linter.unusedSectionVars false

namespace GwEcc

open Spec

variable {K : Type} [Field K] [LinearOrder K] [IsStrictOrderedRing K]

/-- The average frequency grows: `pts` are the points of one value per orbit (from pericenter to pericenter and from apocenter to
apocenter) in the order of time, the phase accumulated per unit time grows from one to the next, `ts` are the samples
covered by the extrema and these points, and the spline through the points takes there the growing values `ws`. -/
structure Spec.AverageGrows (e : Ext K) (o : Obj K) (p a : List ℕ) (pts : List (K × K)) (ts ws : List K) : Prop where
  points : pts.Perm (OrbitPoints o.phase o.t a ++ OrbitPoints o.phase o.t p)
  times : (pts.map (·.1)).Pairwise (· < ·)
  rates : (pts.map (·.2)).Pairwise (· < ·)
  samples : ∀ keep : K → Bool, (∀ x, keep x = true ↔ Covered o p a x ∧ Within (pts.map (·.1)) x) → ts = o.t.filter keep
  values : List.Forall₂ (fun x y => e.eval (.spline (min o.generalKw.k (pts.length - 1)) 2) (pts.map (·.1)) (pts.map (·.2)) x
    = .ok y) ts ws
  grows : ws.Pairwise (· < ·)

theorem mapM_of_forall₂ {α β : Type} {f : α → Py β} {l : List α} {m : List β} (h : List.Forall₂ (fun x y => f x = .ok y) l m) :
    l.mapM f = .ok m := by
  induction h with
  | nil => rfl
  | cons h _ ih => rw [List.mapM_cons, h, ok_bind, ih]; rfl

theorem interpolate_of_values {tol : K} (htol : 0 ≤ tol) {eval : InterpCall → List K → List K → K → Py K} {newX x y out : List K}
    {kw : SplineKwargs} {given : Bool} (hlen : y.length = x.length) (hx : x.Pairwise (· < ·)) (h2 : 2 ≤ x.length)
    (hnew : newX ≠ []) (hin : ∀ u ∈ newX, Within x u)
    (h : List.Forall₂ (fun u v => eval (.spline (min kw.k (x.length - 1)) 2) x y u = .ok v) newX out) :
    interpolate tol eval newX x y false .spline kw given = .ok out := by
  rw [interpolate_within htol eval .spline kw given hlen hx hnew hin]
  obtain ⟨kw', w, hr⟩ := getInterpolant_spline hx h2 kw given
  rw [hr, ok_bind]
  exact mapM_of_forall₂ h

theorem eq_of_increasing_keys {α : Type} : ∀ {l m : List (K × α)}, l.Perm m → (l.map (·.1)).Pairwise (· < ·) →
    (m.map (·.1)).Pairwise (· ≤ ·) → m = l := by
  intro l m hp hl hm
  have hnd : (m.map (·.1)).Nodup := (hp.map Prod.fst).nodup_iff.mp (hl.imp fun h => h.ne)
  have hm' : (m.map (·.1)).Pairwise (· < ·) := (hm.and hnd).imp fun h => lt_of_le_of_ne h.1 h.2
  rw [List.pairwise_map] at hl hm'
  exact hp.symm.eq_of_pairwise (fun x y _ _ h1 h2 => absurd (h1.trans h2) (lt_irrefl _)) hm' hl

theorem orbit_rates_increase {phase t : List K} {ext : List ℕ} {pts : List (K × K)}
    (hsub : ∀ x ∈ OrbitPoints phase t ext, x ∈ pts) (hinc : ((OrbitPoints phase t ext).map (·.1)).Pairwise (· < ·))
    (h1 : (pts.map (·.1)).Pairwise (· < ·)) (h2 : (pts.map (·.2)).Pairwise (· < ·)) :
    ((OrbitPoints phase t ext).map (·.2)).Pairwise (· < ·) := by
  rw [List.pairwise_map] at hinc ⊢
  refine hinc.imp_of_mem fun {x y} hx hy hxy => ?_
  obtain ⟨i, hi, ei⟩ := List.getElem_of_mem (hsub x hx)
  obtain ⟨j, hj, ej⟩ := List.getElem_of_mem (hsub y hy)
  rw [List.pairwise_map] at h1 h2
  rcases lt_trichotomy i j with h | h | h
  · have := List.pairwise_iff_getElem.mp h2 i j hi hj h
    rwa [ei, ej] at this
  · subst h; rw [ei] at ej; subst ej; exact absurd hxy (lt_irrefl _)
  · have := List.pairwise_iff_getElem.mp h1 j i hj hi h
    rw [ei, ej] at this
    exact absurd (hxy.trans this) (lt_irrefl _)

theorem mid_increasing {t : List K} (ht : t.Pairwise (· < ·)) (phase : List K) : ∀ {ext : List ℕ}, ext.Pairwise (· < ·) →
    (∀ i ∈ ext, i < t.length) → ((OrbitPoints phase t ext).map (·.1)).Pairwise (· < ·)
  | [], _, _ => by simp [OrbitPoints]
  | [i], _, _ => by simp [OrbitPoints]
  | i :: j :: l, hs, hin => by
    have ih := mid_increasing ht phase (List.pairwise_cons.mp hs).2 (fun k hk => hin k (by simp [hk]))
    have hlt : ∀ u ∈ i :: j :: l, ∀ v ∈ i :: j :: l, u < v → t.getD u 0 < t.getD v 0 := by
      intro u hu v hv h
      rw [List.getD_eq_getElem _ _ (hin u hu), List.getD_eq_getElem _ _ (hin v hv)]
      exact List.pairwise_iff_getElem.mp ht u v _ _ h
    have hij : i < j := (List.pairwise_cons.mp hs).1 j (by simp)
    cases l with
    | nil => simp [OrbitPoints]
    | cons k l =>
      have hjk : j < k := (List.pairwise_cons.mp (List.pairwise_cons.mp hs).2).1 k (by simp)
      have e1 : OrbitPoints phase t (i :: j :: k :: l) =
        ((t.getD i 0 + t.getD j 0) / 2, MeanRate phase t i j) :: OrbitPoints phase t (j :: k :: l) := rfl
      have e2 : OrbitPoints phase t (j :: k :: l) =
        ((t.getD j 0 + t.getD k 0) / 2, MeanRate phase t j k) :: OrbitPoints phase t (k :: l) := rfl
      rw [e1, List.map_cons]
      rw [e2, List.map_cons] at ih ⊢
      rw [← List.isChain_iff_pairwise] at ih ⊢
      refine List.isChain_cons_cons.mpr ⟨?_, ih⟩
      have a1 := hlt i (by simp) j (by simp) hij
      have a2 := hlt j (by simp) k (by simp) hjk
      show (t.getD i 0 + t.getD j 0) / 2 < (t.getD j 0 + t.getD k 0) / 2
      linarith

/-- The average of the default method. -/
theorem omegaAverage_of [FloorRing K] {e : Ext K} {o : Obj K} {p a : List ℕ} {m : Meas K} {pts : List (K × K)} {ts ws : List K}
    (htol : 0 ≤ e.tol) (hsort : ∀ l, Sorts l (e.argsort l)) (g : GoodExtrema e o p a) (hm : prepare e o p a = .ok m)
    (h : AverageGrows e o p a pts ts ws) (hne : ts ≠ []) :
    omegaAverage e m (some "orbit_averaged_omega_gw") = .ok (ts, ws) := by
  obtain ⟨ho, hpp, haa, htp, hta, _⟩ := prepare_ok hm
  obtain ⟨hperm, hle⟩ := C28_attached e m hsort
  have hlenT : (tAverage e m).1.length = (takeAt (orbitAveraged m.o m.apocenters ++ orbitAveraged m.o m.pericenters)
      (tAverage e m).2).length := by
    simp [tAverage, takeAt]
  subst ho hpp haa
  have hz := eq_of_increasing_keys (h.points.trans hperm.symm) h.times (by
    rw [List.map_fst_zip hlenT.le]; exact hle)
  have hfst : (tAverage e m).1 = pts.map (·.1) := by rw [← hz, List.map_fst_zip hlenT.le]
  have hsnd : takeAt (orbitAveraged m.o m.apocenters ++ orbitAveraged m.o m.pericenters) (tAverage e m).2 = pts.map (·.2) := by
    rw [← hz, List.map_snd_zip hlenT.ge]
  have hlen2 : 2 ≤ pts.length := by
    rw [h.points.length_eq]
    have := g.twoP
    have := g.twoA
    simp [OrbitPoints]
    omega
  have hpne : pts.map (·.1) ≠ [] := by
    intro hc
    have := congrArg List.length hc
    simp at this
    rw [this] at hlen2
    simp at hlen2
  obtain ⟨mn, hmn⟩ := npMin_ok hpne
  obtain ⟨mx, hmx⟩ : ∃ v, npMax (pts.map (·.1)) = .ok v := by
    cases hc : pts.map (·.1) with
    | nil => exact absurd hc hpne
    | cons x l => exact ⟨_, rfl⟩
  have hts : averageTimes e m "orbit_averaged_omega_gw" = .ok ts := by
    unfold averageTimes
    rw [if_neg (by simp), hfst]
    simp only [hmn, hmx, ok_bind, pure_eq_ok]
    congr 1
    refine (h.samples _ fun x => ?_).symm
    rw [decide_eq_true_eq]
    have hw : Within (pts.map (·.1)) x ↔ mn ≤ x ∧ x ≤ mx := by
      unfold Within
      rw [first_least h.times hmn, last_greatest h.times hmx]
      simp
    have hc := prepare_window hm x
    have hc' : Covered m.o m.pericenters m.apocenters x ↔ m.tmin ≤ x ∧ x ≤ m.tmax := by
      rw [hc, htp, hta]; rfl
    rw [hw, hc', max_le_iff, le_min_iff]
    tauto
  have hin : ∀ u ∈ ts, Within (pts.map (·.1)) u := by
    intro u hu
    classical
    have := h.samples (fun x => decide (Covered m.o m.pericenters m.apocenters x ∧ Within (pts.map (·.1)) x)) (by simp)
    rw [this, List.mem_filter, decide_eq_true_eq] at hu
    exact hu.2.2
  have mp : ∀ ext : List ℕ, orbitAveraged m.o ext = (OrbitPoints m.o.phase m.o.t ext).map (·.2) := by
    intro ext
    rw [← zip_orbitAveraged, List.map_snd_zip]
    rw [length_midTimes, length_orbitAveraged]; simp [takeAt]
  have sP := orbit_rates_increase (fun x hx => h.points.mem_iff.mpr (List.mem_append_right _ hx))
    (mid_increasing g.times m.o.phase g.incP g.inP) h.times h.rates
  have sA := orbit_rates_increase (fun x hx => h.points.mem_iff.mpr (List.mem_append_left _ hx))
    (mid_increasing g.times m.o.phase g.incA g.inA) h.times h.rates
  unfold omegaAverage
  simp only [Option.getD_some, hts, ok_bind]
  unfold evalAverage
  rw [if_neg (by simp), if_pos rfl]
  unfold computeOrbitAveraged
  dsimp only
  rw [(checkAverageIncreasing_ok_iff _).mpr (by rw [mp]; exact sP), (checkAverageIncreasing_ok_iff _).mpr (by rw [mp]; exact sA)]
  simp only [ok_bind]
  rw [hsnd, (checkAverageIncreasing_ok_iff _).mpr h.rates, hfst]
  simp only [ok_bind]
  rw [interpolate_of_values htol (by simp) h.times (by simpa using hlen2) hne hin (by simpa using h.values)]
  rfl

/-- A measurement at given frequencies succeeds (at the default debug level, with the default average) whenever the extrema found
are usable, the two curves through the frequencies there can be evaluated in their common range, at least two samples lie in that
range, the average frequency grows, at least one of the frequencies asked for lies between its first value (or is equal to it) and
its last, and those that do get times in the common range.  All extrema found are used. -/
theorem C77_frequencies [FloorRing K] (e : Ext K) (o : Obj K) (p a : List ℕ) (fP fA : K → Py K)
    (pts : List (K × K)) (ts ws : List K) (lo hi : K)
    (hpi : 0 < e.pi) (htol : 0 ≤ e.tol) (hsort : ∀ l, Sorts l (e.argsort l)) (hd : o.domain = .frequency) (hl : o.level = 0)
    (havg : o.avgMethod = "orbit_averaged_omega_gw") (hpf : (o.precessing && o.filtered) = false)
    (g : GoodExtrema e o p a) (hdata : o.dataT.Pairwise (· < ·))
    (hP : ExtremaCurve e o .pericenters p a fP) (hA : ExtremaCurve e o .apocenters p a fA)
    (htot : ∀ x, Covered o p a x → (∃ y, fP x = .ok y) ∧ ∃ y, fA x = .ok y)
    (htwo : ∃ x y, x ≠ y ∧ x ∈ o.dataT ∧ y ∈ o.dataT ∧ Covered o p a x ∧ Covered o p a y)
    (hgrow : AverageGrows e o p a pts ts ws)
    (hlo : ws.head? = some (2 * e.pi * lo)) (hhi : ws.getLast? = some (2 * e.pi * hi))
    (href : ∃ f ∈ o.refIn.atleast1d, lo ≤ f ∧ f < hi)
    (htimes : ∀ f ∈ o.refIn.atleast1d, lo ≤ f → f < hi → ∃ x, Covered o p a x ∧
      e.eval (.spline (min o.generalKw.k (ws.length - 1)) 2) (ws.map (· / (2 * e.pi))) ts f = .ok x)
    (hder : ∀ x y t, x.length = y.length → 2 ≤ x.length → x.Pairwise (· < ·) → t ∈ x →
      ∃ v, e.deriv (.spline (min o.generalKw.k (x.length - 1)) 2) x y t = .ok v) :
    ∃ ret m v, measureEcc e o none = .ok (ret, some m, some (ts, ws)) ∧ m.pericenters = p ∧ m.apocenters = a ∧
      ret.get? "fref_out" = some v ∧
      ∀ keep : K → Bool, (∀ f, keep f = true ↔ lo ≤ f ∧ f < hi) → v.atleast1d = o.refIn.atleast1d.filter keep := by
  have hpi0 : e.pi ≠ 0 := hpi.ne'
  have h2pi : 0 < 2 * e.pi := by positivity
  have hwne : ws ≠ [] := by rintro rfl; simp at hlo
  have htne : ts ≠ [] := by
    rintro rfl
    have := hgrow.values.length_eq
    exact hwne (List.length_eq_zero_iff.mp this.symm)
  obtain ⟨mn, hmn⟩ := npMin_ok hwne
  obtain ⟨mx, hmx⟩ : ∃ v, npMax ws = .ok v := by
    cases hc : ws with
    | nil => exact absurd hc hwne
    | cons x l => exact ⟨_, rfl⟩
  have emn : mn / 2 / e.pi = lo := by
    have := (first_least hgrow.grows hmn).symm.trans hlo
    rw [Option.some.inj this]; field_simp
  have emx : mx / 2 / e.pi = hi := by
    have := (last_greatest hgrow.grows hmx).symm.trans hhi
    rw [Option.some.inj this]; field_simp
  obtain ⟨kept, hkept⟩ : ∃ l, l = o.refIn.atleast1d.filter (fun f => decide (lo ≤ f ∧ f < hi)) := ⟨_, rfl⟩
  have hkmem : ∀ f, f ∈ kept ↔ f ∈ o.refIn.atleast1d ∧ lo ≤ f ∧ f < hi := by
    intro f; rw [hkept, List.mem_filter, decide_eq_true_eq]
  have hkne : kept ≠ [] := by
    obtain ⟨f, hf, h⟩ := href
    exact List.ne_nil_of_mem ((hkmem f).mpr ⟨hf, h⟩)
  have hlohi : lo < hi := by
    obtain ⟨f, _, h1, h2⟩ := href
    exact h1.trans_lt h2
  have hw2 : 2 ≤ ws.length := by
    match hc : ws, hwne with
    | [z], _ =>
      simp only [List.head?_cons, List.getLast?_singleton, Option.some.injEq] at hlo hhi
      have : 2 * e.pi * lo = 2 * e.pi * hi := hlo.symm.trans hhi
      exact absurd (mul_left_cancel₀ h2pi.ne' this) hlohi.ne
    | _ :: _ :: _, _ => simp
  have hfi : (ws.map (· / (2 * e.pi))).Pairwise (· < ·) := by
    rw [List.pairwise_map]
    exact hgrow.grows.imp fun h => div_lt_div_of_pos_right h h2pi
  have hwithin : ∀ f ∈ kept, Within (ws.map (· / (2 * e.pi))) f := by
    intro f hf
    obtain ⟨_, h1, h2⟩ := (hkmem f).mp hf
    refine ⟨lo, hi, ?_, ?_, h1, h2.le⟩
    · rw [List.head?_map, hlo, Option.map_some]; congr 1; field_simp
    · rw [List.getLast?_map, hhi, Option.map_some]; congr 1; field_simp
  obtain ⟨xs, hxs, hcov⟩ : ∃ xs, List.Forall₂ (fun f x => e.eval (.spline (min o.generalKw.k (ws.length - 1)) 2)
      (ws.map (· / (2 * e.pi))) ts f = .ok x) kept xs ∧ ∀ x ∈ xs, Covered o p a x := by
    have : ∀ l : List K, (∀ f ∈ l, f ∈ kept) → ∃ xs, List.Forall₂ (fun f x =>
        e.eval (.spline (min o.generalKw.k (ws.length - 1)) 2) (ws.map (· / (2 * e.pi))) ts f = .ok x) l xs ∧
        ∀ x ∈ xs, Covered o p a x := by
      intro l
      induction l with
      | nil => exact fun _ => ⟨[], .nil, by simp⟩
      | cons f l ih =>
        intro h
        obtain ⟨xs, h1, h2⟩ := ih fun g hg => h g (by simp [hg])
        obtain ⟨hf, k1, k2⟩ := (hkmem f).mp (h f (by simp))
        obtain ⟨x, c, hx⟩ := htimes f hf k1 k2
        refine ⟨x :: xs, .cons hx h1, ?_⟩
        intro y hy
        rcases List.mem_cons.mp hy with rfl | hy
        · exact c
        · exact h2 y hy
    exact this kept fun _ h => h
  have hrt : ∀ m, prepare e o p a = .ok m → referenceTimes e m none = .ok (xs, kept, some (ts, ws)) := by
    intro m hm
    have hav := omegaAverage_of htol hsort g hm hgrow htne
    have ho := (prepare_ok hm).1
    subst ho
    have hb : frefBounds e m none (some m.o.avgMethod) = .ok ((lo, hi), some (ts, ws)) := by
      unfold frefBounds
      rw [havg]
      have : ∃ w, (if m.o.useOnly then debugMessage m.o.level false else pure .silent) = (.ok w : Py Outcome) := by
        rw [hl]; split
        · exact ⟨_, rfl⟩
        · exact ⟨_, rfl⟩
      obtain ⟨w, hw⟩ := this
      rw [hw]
      simp only [ok_bind, hav, hmn, hmx, emn, emx]
      rfl
    have hfo : frefOut e m none m.o.refIn.atleast1d m.o.avgMethod = .ok (kept, some (ts, ws)) := by
      unfold frefOut
      rw [hb]
      simp only [ok_bind]
      rw [← hkept, if_neg (by intro h; exact hkne (List.length_eq_zero_iff.mp h))]
      rfl
    have htr : trefFromFref e m none m.o.refIn.atleast1d = .ok ((xs, kept), some (ts, ws)) := by
      unfold trefFromFref
      rw [if_pos (by rw [havg]; decide), hfo]
      simp only [ok_bind]
      rw [havg, hav]
      simp only [ok_bind]
      rw [(checkAverageIncreasing_ok_iff _).mpr hgrow.grows]
      simp only [ok_bind]
      rw [interpolate_of_values htol (by rw [List.length_map]; exact hgrow.values.length_eq) hfi (by simpa using hw2) hkne hwithin
        (by simpa using hxs)]
      simp only [ok_bind]
      have : ∃ w, (if (diff xs).any (fun d => decide (d ≤ 0)) then debugMessage m.o.level false else pure .silent)
          = (.ok w : Py Outcome) := by
        rw [hl]; split
        · exact ⟨_, rfl⟩
        · exact ⟨_, rfl⟩
      obtain ⟨w, hw⟩ := this
      rw [hw]
      rfl
    unfold referenceTimes
    rw [hd]
    simp only [htr, ok_bind]
    rfl
  have hlenx := hxs.length_eq
  obtain ⟨ret, m, trefIn, fOut, cache', hm, hr, h, hpp, haa⟩ := measure_good e o none p a fP fA hpi hl hpf g hdata hP hA htot
    htwo hder fun m hm => by
      refine ⟨xs, kept, some (ts, ws), hrt m hm, ?_, ?_, fun _ => ⟨hlenx, hcov⟩⟩
      · have : xs ≠ [] := by
          rintro rfl
          exact hkne (List.length_eq_zero_iff.mp hlenx)
        obtain ⟨x, hx⟩ := List.exists_mem_of_ne_nil _ this
        exact ⟨x, hx, hcov x hx⟩
      · rw [← hlenx, hkept]; exact List.length_filter_le _ _
  rw [hrt m hm] at hr
  cases hr
  obtain ⟨v, tAvg, wAvg, mn', mx', k1, k2, k3, k4, _, _, _, k8, _⟩ := frequency_measured hd h
  have hav := omegaAverage_of htol hsort g hm hgrow htne
  rw [havg, hav] at k2
  cases k2
  cases hmn.symm.trans k3
  cases hmx.symm.trans k4
  refine ⟨ret, m, v, h, hpp, haa, k1, fun keep hk => ?_⟩
  rw [k8, emn, emx]
  apply List.filter_congr
  intro f _
  rw [Bool.eq_iff_iff, hk, decide_eq_true_eq]

/-! ### The premises are met -/

namespace Demo

/-- One point per orbit of the demonstration waveform, in the order of time. -/
def orbits : List (ℚ × ℚ) := [(4, 102 / 25), (6, 103 / 25), (8, 104 / 25), (10, 21 / 5), (12, 106 / 25), (14, 107 / 25)]

example : OrbitPoints obj.phase obj.t [4, 8, 12, 16] = [(6, 103 / 25), (10, 21 / 5), (14, 107 / 25)] ∧
    OrbitPoints obj.phase obj.t [2, 6, 10, 14] = [(4, 102 / 25), (8, 104 / 25), (12, 106 / 25)] := by decide +kernel

theorem goodF : GoodExtrema ext objF [2, 6, 10, 14] [4, 8, 12, 16] := by
  obtain ⟨h1, h2, h3, h4, h5, h6, h7, h8, h9, h10, h11, h12, h13, h14⟩ := good
  exact ⟨h1, h2, h3, h4, h5, h6, h7, h8, h9, h10, h11, h12, h13, h14⟩

theorem coveredF (x : ℚ) : Covered objF [2, 6, 10, 14] [4, 8, 12, 16] x ↔ 4 ≤ x ∧ x ≤ 14 := by
  have e1 : [2, 6, 10, 14].map (fun i => objF.t.getD i 0) = [(2 : ℚ), 6, 10, 14] := by decide +kernel
  have e2 : [4, 8, 12, 16].map (fun i => objF.t.getD i 0) = [(4 : ℚ), 8, 12, 16] := by decide +kernel
  unfold Covered
  rw [e1, e2]
  constructor
  · rintro ⟨⟨a, b, ha, hb, h1, h2⟩, c, d, hc, hd, h3, h4⟩
    simp at ha hb hc hd
    subst ha hb hc hd
    exact ⟨h3, h2⟩
  · rintro ⟨h1, h2⟩
    exact ⟨⟨2, 14, by simp, by simp, by linarith, h2⟩, 4, 16, by simp, by simp, h1, by linarith⟩

theorem growsF : AverageGrows ext objF [2, 6, 10, 14] [4, 8, 12, 16] orbits [4, 5, 6, 7, 8, 9, 10, 11, 12, 13, 14]
    [102 / 25, 41 / 10, 103 / 25, 207 / 50, 104 / 25, 209 / 50, 21 / 5, 211 / 50, 106 / 25, 213 / 50, 107 / 25] where
  points := by decide +kernel
  times := by decide +kernel
  rates := by decide +kernel
  samples := by
    intro keep hk
    have hw : ∀ x : ℚ, Within (orbits.map (·.1)) x ↔ 4 ≤ x ∧ x ≤ 14 := by
      intro x
      constructor
      · rintro ⟨a, b, ha, hb, h1, h2⟩
        simp [orbits] at ha hb
        subst ha hb
        exact ⟨h1, h2⟩
      · rintro ⟨h1, h2⟩
        exact ⟨4, 14, by simp [orbits], by simp [orbits], h1, h2⟩
    have : keep = fun x => decide (4 ≤ x ∧ x ≤ 14) := by
      funext x
      rw [Bool.eq_iff_iff, hk, coveredF, hw, decide_eq_true_eq, and_self]
    rw [this]
    decide +kernel
  values := by
    repeat' first | exact .nil | refine .cons (by decide +kernel) ?_
  grows := by decide +kernel

/-- The demonstration asked for the frequencies 0, 13/20, 2/3 and 1 succeeds and answers the second and third. -/
example : ∃ ret m v, measureEcc ext objF none = .ok (ret, some m, some ([4, 5, 6, 7, 8, 9, 10, 11, 12, 13, 14],
    [102 / 25, 41 / 10, 103 / 25, 207 / 50, 104 / 25, 209 / 50, 21 / 5, 211 / 50, 106 / 25, 213 / 50, 107 / 25])) ∧
    m.pericenters = [2, 6, 10, 14] ∧ m.apocenters = [4, 8, 12, 16] ∧ ret.get? "fref_out" = some v ∧
    ∀ keep : ℚ → Bool, (∀ f, keep f = true ↔ 357 / 550 ≤ f ∧ f < 749 / 1100) →
      v.atleast1d = objF.refIn.atleast1d.filter keep := by
  refine C77_frequencies ext objF _ _ _ _ orbits _ _ (357 / 550) (749 / 1100) (by decide +kernel) (by decide +kernel) demo_sorts rfl
    rfl rfl rfl goodF (by decide +kernel) (Or.inl ⟨rfl, rfl⟩) (Or.inl ⟨rfl, rfl⟩)
    (fun x _ => ⟨npInterp_total x _ (by decide +kernel), npInterp_total x _ (by decide +kernel)⟩)
    ⟨5, 6, by norm_num, by decide +kernel, by decide +kernel, (coveredF _).mpr (by norm_num), (coveredF _).mpr (by norm_num)⟩
    growsF (by decide +kernel) (by decide +kernel) ⟨13 / 20, by decide +kernel, by norm_num, by norm_num⟩ ?_
    (fun _ _ _ _ _ _ _ => ⟨0, rfl⟩)
  intro f hf h1 h2
  have hf : f ∈ ([0, 13 / 20, 2 / 3, 1] : List ℚ) := hf
  simp only [List.mem_cons, List.not_mem_nil, or_false] at hf
  rcases hf with rfl | rfl | rfl | rfl
  · exact absurd h1 (by norm_num)
  · exact ⟨30 / 7, (coveredF _).mpr (by norm_num), by decide +kernel⟩
  · exact ⟨200 / 21, (coveredF _).mpr (by norm_num), by decide +kernel⟩
  · exact absurd h2 (by norm_num)

end Demo

end GwEcc
