import Verif.Lemmas.ConstructOk
import Verif.Lemmas.Measure
import Verif.Props.WholeLevels
import Verif.Spec.StrictCall

/-!
# C76 (whole call): what the strict debug level vouches for
-/

set_option linter.unusedSectionVars false

namespace GwEcc

open Spec

section lemmas

variable {K : Type} [Field K] [LinearOrder K] [IsStrictOrderedRing K]

theorem strict_message (i v : Bool) : debugMessage 2 i v = .error .exception := rfl

theorem strict_if {c : Prop} [Decidable c] {i v : Bool} {z : Outcome} {o : Outcome}
    (h : (if c then debugMessage 2 i v else (pure z : Py Outcome)) = .ok o) : ¬ c := by
  intro hc
  rw [if_pos hc] at h
  exact nomatch h

theorem trimEnd_strict {l l' : List ℕ} {x : ℕ} (h : trimEnd 2 l x = .ok l') : l' = l := by
  unfold trimEnd at h
  dsimp only at h
  split at h
  · exact nomatch h
  · exact (Except.ok.inj h).symm

theorem trimStart_strict {l l' : List ℕ} {x : ℕ} (h : trimStart 2 l x = .ok l') : l' = l := by
  unfold trimStart at h
  dsimp only at h
  split at h
  · exact nomatch h
  · exact (Except.ok.inj h).symm

theorem dropExtraAtEnds_strict {p a : List ℕ} {r : List ℕ × List ℕ} (h : dropExtraAtEnds 2 p a = .ok r) : r = (p, a) := by
  unfold dropExtraAtEnds at h
  obtain ⟨_, _, h⟩ := bind_ok h
  obtain ⟨_, h1, h⟩ := bind_ok h
  obtain ⟨_, _, h⟩ := bind_ok h
  obtain ⟨_, h2, h⟩ := bind_ok h
  obtain ⟨_, _, h⟩ := bind_ok h
  obtain ⟨_, h3, h⟩ := bind_ok h
  obtain ⟨_, _, h⟩ := bind_ok h
  obtain ⟨_, h4, h⟩ := bind_ok h
  rw [← Except.ok.inj h, trimStart_strict h4, trimStart_strict h3, trimEnd_strict h2, trimEnd_strict h1]

theorem dropJumps_strict {ph : ℕ → K} {maxR : K} {l l' : List ℕ} (h : dropJumps ph maxR 2 l = .ok l') : l' = l := by
  unfold dropJumps at h
  dsimp only at h
  obtain ⟨e1, h1, h⟩ := bind_ok h
  have : e1 = l := by
    unfold dropJumpsEnd at h1
    split at h1
    · exact (Except.ok.inj h1).symm
    · split at h1
      · obtain ⟨_, _, h1⟩ := bind_ok h1
        obtain ⟨_, _, h1⟩ := bind_ok h1
        exact nomatch h1
      · exact (Except.ok.inj h1).symm
  subst this
  unfold dropJumpsStart at h
  split at h
  · exact (Except.ok.inj h).symm
  · split at h
    · obtain ⟨_, _, h⟩ := bind_ok h
      obtain ⟨_, _, h⟩ := bind_ok h
      exact nomatch h
    · exact (Except.ok.inj h).symm

theorem dropTooClose_strict {ph : ℕ → K} {minDiff : K} {l l' : List ℕ} (h : dropTooClose ph minDiff 2 l = .ok l') : l' = l := by
  unfold dropTooClose at h
  dsimp only at h
  split at h
  · exact (Except.ok.inj h).symm
  · obtain ⟨e1, h1, h⟩ := bind_ok h
    have : e1 = l := by
      split at h1
      · obtain ⟨_, _, h1⟩ := bind_ok h1
        obtain ⟨_, _, h1⟩ := bind_ok h1
        exact nomatch h1
      · exact (Except.ok.inj h1).symm
    subst this
    split at h
    · obtain ⟨_, _, h⟩ := bind_ok h
      exact nomatch h
    · exact (Except.ok.inj h).symm

theorem getGoodExtrema_strict {ph : ℕ → K} {maxR minDiff : K} {p a : List ℕ} {r : List ℕ × List ℕ}
    (h : getGoodExtrema ph maxR minDiff 2 p a = .ok r) : r = (p, a) := by
  unfold getGoodExtrema at h
  obtain ⟨_, h1, h⟩ := bind_ok h
  obtain ⟨_, h2, h⟩ := bind_ok h
  obtain ⟨_, h3, h⟩ := bind_ok h
  obtain ⟨_, h4, h⟩ := bind_ok h
  rw [dropExtraAtEnds_strict h, dropTooClose_strict h4, dropTooClose_strict h3, dropJumps_strict h2, dropJumps_strict h1]

/-- Interleaved lists in order of time take turns. -/
theorem takeTurns_of (t : ℕ → K) : ∀ (n : ℕ) (x y : List ℕ), x.length + y.length = n → y.length ≤ x.length →
    x.length ≤ y.length + 1 → ((interleave x y).map t).IsChain (· ≤ ·) → TakeTurns (x.map t) (y.map t)
  | _, [], [], _, _, _, _ => ⟨by simp, by simp, by simp, by simp⟩
  | _, [], b :: y, _, h1, _, _ => by simp at h1
  | n, c :: x, y, hn, h1, h2, hc => by
    rw [interleave] at hc
    simp only [List.length_cons] at hn h1 h2
    have ih := takeTurns_of t (y.length + x.length) y x rfl (by omega) (by omega) (by
      rw [List.map_cons] at hc; exact hc.tail)
    obtain ⟨i1, i2, i3, i4⟩ := ih
    simp only [List.length_map] at i1 i2 i3 i4
    refine ⟨by simpa using h1, by simpa using h2, ?_, ?_⟩
    · intro i hi
      simp only [List.length_map] at hi
      cases i with
      | zero =>
        match y, hi, hc with
        | b :: y, _, hc =>
          rw [interleave] at hc
          simp only [List.map_cons] at hc
          simpa using hc.rel_head
      | succ i => simpa using i4 i hi
    · intro i hi
      simp only [List.map_cons, List.length_cons, List.length_map] at hi
      simpa using i3 i (by omega)

theorem chain_of_diff : ∀ l : List K, (diff l).any (fun d => decide (d < 0)) = false → l.IsChain (· ≤ ·)
  | [], _ => .nil
  | [_], _ => .singleton _
  | a :: b :: l, h => by
    have hd : diff (a :: b :: l) = (b - a) :: diff (b :: l) := by simp [diff]
    rw [hd, List.any_cons, Bool.or_eq_false_iff] at h
    have h1 : ¬ b - a < 0 := by simpa using h.1
    exact .cons_cons (by linarith) (chain_of_diff (b :: l) h.2)

theorem checkAlternate_strict {t : ℕ → K} {p a : List ℕ} {o : Outcome} (h : checkAlternate t 2 p a = .ok o) :
    TakeTurns (p.map t) (a.map t) ∨ TakeTurns (a.map t) (p.map t) := by
  unfold checkAlternate at h
  rw [if_neg (by decide)] at h
  split at h
  · exact nomatch h
  rename_i hl
  push Not at hl
  obtain ⟨⟨x, y⟩, h1, h⟩ := bind_ok h
  dsimp only at h
  have hd := strict_if h
  have hc : ((interleave x y).map t).IsChain (· ≤ ·) := chain_of_diff _ (by simpa using hd)
  have hxy : (x = p ∧ y = a ∧ a.length ≤ p.length) ∨ (x = a ∧ y = p ∧ p.length ≤ a.length) := by
    split at h1
    · rename_i he
      obtain ⟨_, _, h1⟩ := bind_ok h1
      obtain ⟨_, _, h1⟩ := bind_ok h1
      have h1 := Except.ok.inj h1
      split at h1
      · exact Or.inl ⟨(congrArg Prod.fst h1).symm, (congrArg Prod.snd h1).symm, he.ge⟩
      · exact Or.inr ⟨(congrArg Prod.fst h1).symm, (congrArg Prod.snd h1).symm, he.le⟩
    · have h1 := Except.ok.inj h1
      split at h1
      · exact Or.inl ⟨(congrArg Prod.fst h1).symm, (congrArg Prod.snd h1).symm, by omega⟩
      · exact Or.inr ⟨(congrArg Prod.fst h1).symm, (congrArg Prod.snd h1).symm, by omega⟩
  rcases hxy with ⟨rfl, rfl, hle⟩ | ⟨rfl, rfl, hle⟩
  · exact Or.inl (takeTurns_of t _ _ _ rfl hle (by omega) hc)
  · exact Or.inr (takeTurns_of t _ _ _ rfl hle (by omega) hc)

theorem checkSeparation_strict {pi : K} (hpi : 0 < pi) {b : Bool} {ph ts : List K} (hlen : ph.length = ts.length)
    {r : Option (List K × List K) × List (SepWarning K)} (h : checkSeparation pi 2 b ph ts = .ok r) : OrbitApart pi ph := by
  have hpos : ∀ i, i + 1 < ph.length → 0 < OrbitalStep ph i := by
    intro i hi
    by_contra hn
    have hc : ∃ k, TooClose pi ph k := ⟨i, hi, by linarith⟩
    have := (any_steps (ph := ph) (fun x => decide (x < pi)) _ rfl).mpr
      (by obtain ⟨k, h1, h2⟩ := hc; exact ⟨k, h1, by simpa using h2⟩)
    unfold checkSeparation at h
    rw [if_neg (by simp)] at h
    dsimp only at h
    rw [if_pos this] at h
    exact nomatch h
  have hs := (C66_separation_strict pi hpi b ph ts hlen hpos).1
  intro i
  by_contra hc
  have hex : ∃ i, TooClose pi ph i ∨ HalfOrbit pi ph i ∨ TooFar ph i := ⟨i, by tauto⟩
  rw [hs.mpr hex] at h
  exact nomatch h

theorem pyGet_some {α : Type} {l : List α} {i : ℕ} {x : α} (h : pyGet l i = .ok x) : l[i]? = some x := by
  obtain ⟨hi, rfl⟩ := pyGet_ok h
  exact List.getElem?_eq_getElem hi

theorem mapM_member {α β : Type} {f : α → Py β} : ∀ {l : List α} {r : List β}, l.mapM f = .ok r →
    ∀ x ∈ l, ∃ y ∈ r, f x = .ok y
  | [], _, _, x, hx => absurd hx (by simp)
  | a :: l, r, h, x, hx => by
    rw [List.mapM_cons] at h
    obtain ⟨b, hb, h⟩ := bind_ok h
    obtain ⟨q, hq, h⟩ := bind_ok h
    cases Except.ok.inj h
    rcases List.mem_cons.mp hx with rfl | hx
    · exact ⟨b, by simp, hb⟩
    · obtain ⟨y, hy, hf⟩ := mapM_member hq x hx
      exact ⟨y, by simp [hy], hf⟩

theorem settle_strict {e : Ext K} {o : Obj K} (h2 : o.level = 2) (hpi : 0 < e.pi) {p a p' a' : List ℕ}
    (h : settleExtrema e o p a = .ok (p', a')) :
    p' = (if o.precessing && o.filtered then p.drop 1 else p) ∧ a' = (if o.precessing && o.filtered then a.drop 1 else a) ∧
    (TakeTurns (takeAt o.t p') (takeAt o.t a') ∨ TakeTurns (takeAt o.t a') (takeAt o.t p')) ∧
    OrbitApart e.pi (takeAt o.phase p') ∧ OrbitApart e.pi (takeAt o.phase a') := by
  unfold settleExtrema at h
  rw [h2] at h
  obtain ⟨⟨p1, a1⟩, hg, h⟩ := bind_ok h
  have hg := getGoodExtrema_strict hg
  simp only [Prod.mk.injEq] at hg
  obtain ⟨rfl, rfl⟩ := hg
  dsimp only at h
  obtain ⟨_, _, h⟩ := bind_ok h
  obtain ⟨_, _, h⟩ := bind_ok h
  have key : ∀ q : List ℕ × List ℕ, q = (if (o.precessing && o.filtered) = true then (p1.drop 1, a1.drop 1) else (p1, a1)) →
      q = (if o.precessing && o.filtered then p1.drop 1 else p1, if o.precessing && o.filtered then a1.drop 1 else a1) := by
    rintro q rfl
    split <;> rfl
  rw [key _ rfl] at h
  dsimp only at h
  obtain ⟨_, h3, h⟩ := bind_ok h
  obtain ⟨_, h4, h⟩ := bind_ok h
  obtain ⟨_, h5, h⟩ := bind_ok h
  have h := Except.ok.inj h
  simp only [Prod.mk.injEq] at h
  obtain ⟨rfl, rfl⟩ := h
  exact ⟨rfl, rfl, checkAlternate_strict h3, checkSeparation_strict hpi (by simp [takeAt]) h4,
    checkSeparation_strict hpi (by simp [takeAt]) h5⟩

theorem anyConsecutive_false {f : K → K → Bool} : ∀ {l : List K}, anyConsecutive f l = false →
    ∀ i, (h : i + 1 < l.length) → f l[i] l[i + 1] = false
  | [], _, i, h => absurd h (by simp)
  | [_], _, i, h => absurd h (by simp)
  | a :: b :: l, hf, i, h => by
    rw [anyConsecutive, Bool.or_eq_false_iff] at hf
    cases i with
    | zero => exact hf.1
    | succ i => exact anyConsecutive_false hf.2 i (by simpa using h)

/-- The samples of a derivative that rises never fall back by more than the tolerance. -/
theorem notMonotonic_false {x y : List K} {tol : K} (htol : 0 < tol) (h : notStrictlyMonotonic x y tol = .ok false) :
    ∃ x0 x1 g, x[0]? = some x0 ∧ x[1]? = some x1 ∧ npGradient (x1 - x0) y = .ok g ∧
      ∀ i, (hi : i + 1 < g.length) → 0 < g[i] → (1 - tol) * g[i] < g[i + 1] := by
  unfold notStrictlyMonotonic at h
  obtain ⟨x1, h1, h⟩ := bind_ok h
  obtain ⟨x0, h0, h⟩ := bind_ok h
  obtain ⟨g, hg, h⟩ := bind_ok h
  refine ⟨x0, x1, g, pyGet_some h0, pyGet_some h1, hg, fun i hi hpos => ?_⟩
  have hr := anyConsecutive_false (Except.ok.inj h) i hi
  unfold ratioBelowOne at hr
  rw [if_neg (ne_of_gt hpos)] at hr
  dsimp only at hr
  rw [← lt_div_iff₀ hpos]
  split at hr
  · rename_i hlt
    rw [abs_lt] at hlt
    linarith [hlt.2]
  · have : ¬ g[i + 1] / g[i] < 1 := by simpa using hr
    linarith

theorem extremaInterpolant_strict {e : Ext K} {o : Obj K} (h2 : o.level = 2) (htol : 0 < e.monoTol) {ty : ExtType} {p a : List ℕ}
    {ts : List K} {f : K → Py K} (h : extremaInterpolant e o ty p a ts = .ok f) :
    ∃ vals x0 x1 g, ts.mapM f = .ok vals ∧ ts[0]? = some x0 ∧ ts[1]? = some x1 ∧ npGradient (x1 - x0) vals = .ok g ∧
      ∀ i, (hi : i + 1 < g.length) → 0 < g[i] → (1 - e.monoTol) * g[i] < g[i + 1] := by
  unfold extremaInterpolant at h
  rw [h2] at h
  split at h
  · dsimp only at h
    obtain ⟨f', _, h⟩ := bind_ok h
    obtain ⟨vals, h3, h⟩ := bind_ok h
    obtain ⟨bad, h4, h⟩ := bind_ok h
    obtain ⟨out, h5, h⟩ := bind_ok h
    cases Except.ok.inj h
    have hb : bad = false := by simpa using strict_if h5
    rw [hb] at h4
    obtain ⟨x0, x1, g, k1, k2, k3, k4⟩ := notMonotonic_false htol h4
    exact ⟨vals, x0, x1, g, h3, k1, k2, k3, k4⟩
  · exact nomatch h

theorem evaluate_strict [FloorRing K] {e : Ext K} {m : Meas K} {c c' : AvgCache K} {ret : Dict String (Val K)} (h2 : m.o.level = 2)
    (h : evaluate e m c = .ok (ret, c')) :
    (∀ v, ret.get? "eccentricity" = some v → ∀ x ∈ v.atleast1d, 0 ≤ x) ∧
    ∃ d, derivativeOfEccentricity e m m.tChecks = .ok d ∧ ∀ x ∈ d, x ≤ 0 := by
  unfold evaluate at h
  obtain ⟨⟨trefIn, fOut, c1⟩, _, h⟩ := bind_ok h
  dsimp only at h
  split at h
  · exact nomatch h
  split at h
  · obtain ⟨_, _, h⟩ := bind_ok h
    exact nomatch h
  obtain ⟨_, _, h⟩ := bind_ok h
  obtain ⟨_, _, h⟩ := bind_ok h
  obtain ⟨_, _, h⟩ := bind_ok h
  obtain ⟨_, _, h⟩ := bind_ok h
  split at h
  · exact nomatch h
  obtain ⟨ecc, _, h⟩ := bind_ok h
  obtain ⟨ano, _, h⟩ := bind_ok h
  obtain ⟨_, hm, h⟩ := bind_ok h
  obtain ⟨_, hn, h⟩ := bind_ok h
  obtain ⟨ret', hr, h⟩ := bind_ok h
  have h := Except.ok.inj h
  simp only [Prod.mk.injEq] at h
  obtain ⟨rfl, rfl⟩ := h
  constructor
  · obtain ⟨ve, va, vr, rfl, _, _, _, he, _⟩ := makeReturn_ok hr
    intro v hv x hx
    have : ve = v := by
      cases hdom : m.o.domain <;> rw [hdom] at hv <;> simpa [retDict, Dict.get?] using hv
    subst this
    rw [he] at hx
    rw [h2] at hn
    have := strict_if hn
    simp only [List.any_eq_true, decide_eq_true_eq, not_exists, not_and, not_lt] at this
    exact this x hx
  · unfold checkMonotonicity at hm
    obtain ⟨d, hd, hm⟩ := bind_ok hm
    rw [h2] at hm
    have := strict_if hm
    simp only [List.any_eq_true, decide_eq_true_eq, not_exists, not_and, not_lt] at this
    exact ⟨d, hd, this⟩

end lemmas

variable {K C : Type} [Field K] [LinearOrder K] [IsStrictOrderedRing K] [FloorRing K]

/-- **C76, whole call.** At the strict level a call that returns used all extrema its finder found (of a filtered precessing waveform all
but the first of each kind), apocenters being midpoints if asked for; these take turns in time and are about an orbit apart. -/
theorem C76_call_extrema {fuel : ℕ} {lib : Libs K C} (hpi : 0 < lib.wave.pi) {a : Call K C} (h2 : a.level = 2) {ans : Answer K C}
    (h : run fuel lib a = some (.ok ans)) {m : Meas K} (hm : ans.meas = some m) :
    ∃ p q, ans.built.ext.find .pericenters = .ok p ∧
      (if ans.built.obj.midpoints then q = midpointApocenters p else ans.built.ext.find .apocenters = .ok q) ∧
      m.pericenters = (if ans.built.obj.precessing && ans.built.obj.filtered then p.drop 1 else p) ∧
      m.apocenters = (if ans.built.obj.precessing && ans.built.obj.filtered then q.drop 1 else q) ∧
      (TakeTurns m.tPeri m.tApo ∨ TakeTurns m.tApo m.tPeri) ∧
      OrbitApart lib.wave.pi (takeAt ans.built.wave.phase m.pericenters) ∧
      OrbitApart lib.wave.pi (takeAt ans.built.wave.phase m.apocenters) := by
  obtain ⟨R⟩ := run_ok h
  obtain ⟨f⟩ := finish_ok R.h_finish
  have e1 : ans.built.obj.level = 2 := (congrArg (fun b => b.obj.level) f.eq).trans h2
  have e2 : ans.built.ext.pi = lib.wave.pi := congrArg (fun b => b.ext.pi) f.eq
  have e3 : ans.built.obj.phase = ans.built.wave.phase :=
    (congrArg (fun b => b.obj.phase) f.eq).trans (congrArg (fun b => b.wave.phase) f.eq).symm
  obtain ⟨p, q, lacking, hfind, ⟨hn, _⟩ | ⟨m', p', q', hm', _, hs, hprep, _⟩⟩ := measureEcc_ok R.h_measure
  · rw [hn] at hm; cases hm
  rw [hm'] at hm
  cases hm
  obtain ⟨s1, s2, s3, s4, s5⟩ := settle_strict e1 (by rw [e2]; exact hpi) hs
  obtain ⟨g1, g2, g3, g4, g5, _⟩ := prepare_ok hprep
  refine ⟨p, q, ?_, ?_, ?_, ?_, ?_, ?_, ?_⟩
  · unfold findBoth at hfind
    obtain ⟨p0, k1, hfind⟩ := bind_ok hfind
    obtain ⟨_, _, hfind⟩ := bind_ok hfind
    obtain ⟨_, _, hfind⟩ := bind_ok hfind
    obtain ⟨_, _, hfind⟩ := bind_ok hfind
    cases Except.ok.inj hfind
    exact k1
  · unfold findBoth at hfind
    obtain ⟨p0, k1, hfind⟩ := bind_ok hfind
    obtain ⟨_, _, hfind⟩ := bind_ok hfind
    obtain ⟨_, k2, hfind⟩ := bind_ok hfind
    obtain ⟨_, _, hfind⟩ := bind_ok hfind
    cases Except.ok.inj hfind
    split
    · rename_i hc
      rw [if_pos hc] at k2
      exact (Except.ok.inj k2).symm
    · rename_i hc
      rw [if_neg hc] at k2
      exact k2
  · rw [g2, s1]
  · rw [g3, s2]
  · rw [g4, g5]; exact s3
  · rw [g2, ← e2, ← e3]; exact s4
  · rw [g3, ← e2, ← e3]; exact s5

/-- **C76, whole call.** No eccentricity it returns is negative, and the derivative of the eccentricity (by the spline through its values at
the times checked: all times of the data between the first and last extremum of each kind) is nowhere positive there. -/
theorem C76_call_values {fuel : ℕ} {lib : Libs K C} {a : Call K C} (h2 : a.level = 2) {ans : Answer K C}
    (h : run fuel lib a = some (.ok ans)) :
    (∀ v, ans.ret.get? "eccentricity" = some v → ∀ x ∈ v.atleast1d, 0 ≤ x) ∧
    ∀ m, ans.meas = some m → ∃ wp wa spline, m.tChecks.mapM m.interpP = .ok wp ∧ m.tChecks.mapM m.interpA = .ok wa ∧
      ∀ t ∈ m.tChecks, ∃ y, lib.deriv spline m.tChecks (List.zipWith lib.eccOf wp wa) t = .ok y ∧ y ≤ 0 := by
  obtain ⟨R⟩ := run_ok h
  obtain ⟨f⟩ := finish_ok R.h_finish
  have e1 : ans.built.obj.level = 2 := (congrArg (fun b => b.obj.level) f.eq).trans h2
  have e2 : ans.built.ext.deriv = lib.deriv := congrArg (fun b => b.ext.deriv) f.eq
  have e3 : ans.built.ext.eccOf = lib.eccOf := congrArg (fun b => b.ext.eccOf) f.eq
  obtain ⟨p, q, lacking, hfind, ⟨hn, _, _, hz⟩ | ⟨m, p', q', hm, _, hs, hprep, hev⟩⟩ := measureEcc_ok R.h_measure
  · refine ⟨?_, fun m hm => by rw [hn] at hm; cases hm⟩
    intro v hv x hx
    unfold setToZero at hz
    obtain ⟨ve, va, vr, hr, _, _, _, he, _⟩ := makeReturn_ok hz
    rw [hr] at hv
    have : ve = v := by
      cases hdom : ans.built.obj.domain <;> rw [hdom] at hv <;> simpa [retDict, Dict.get?] using hv
    subst this
    rw [he, List.mem_replicate] at hx
    exact hx.2.ge
  · obtain ⟨g1, _⟩ := prepare_ok hprep
    obtain ⟨k1, d, k2, k3⟩ := evaluate_strict (by rw [g1]; exact e1) hev
    refine ⟨k1, fun m' hm' => ?_⟩
    rw [hm] at hm'
    cases hm'
    unfold derivativeOfEccentricity at k2
    obtain ⟨_, _, k2⟩ := bind_ok k2
    obtain ⟨ecc, hecc, k2⟩ := bind_ok k2
    obtain ⟨r, _, k2⟩ := bind_ok k2
    unfold computeEccentricity at hecc
    obtain ⟨_, _, hecc⟩ := bind_ok hecc
    obtain ⟨wp, h3, hecc⟩ := bind_ok hecc
    obtain ⟨wa, h4, hecc⟩ := bind_ok hecc
    have hecc := Except.ok.inj hecc
    refine ⟨wp, wa, r.1, h3, h4, fun t ht => ?_⟩
    rw [e2, ← hecc, e3] at k2
    obtain ⟨y, hy, hy'⟩ := mapM_member k2 t ht
    exact ⟨y, hy', k3 y hy⟩

/-- **C76, whole call.** And where the derivative of a curve through the frequencies at the extrema, sampled at the times checked, is positive,
the next sample is not smaller by more than the tolerance; so once rising, the curve rises to the end. -/
theorem C76_call_curves {fuel : ℕ} {lib : Libs K C} (htol : 0 < lib.monoTol) {a : Call K C} (h2 : a.level = 2) {ans : Answer K C}
    (h : run fuel lib a = some (.ok ans)) {m : Meas K} (hm : ans.meas = some m) :
    ∀ curve ∈ [m.interpP, m.interpA], ∃ vals t0 t1 g, m.tChecks.mapM curve = .ok vals ∧ m.tChecks[0]? = some t0 ∧
      m.tChecks[1]? = some t1 ∧ npGradient (t1 - t0) vals = .ok g ∧
      ∀ i, (hi : i + 1 < g.length) → 0 < g[i] → (1 - lib.monoTol) * g[i] < g[i + 1] := by
  obtain ⟨R⟩ := run_ok h
  obtain ⟨f⟩ := finish_ok R.h_finish
  have e1 : ans.built.obj.level = 2 := (congrArg (fun b => b.obj.level) f.eq).trans h2
  have e2 : ans.built.ext.monoTol = lib.monoTol := congrArg (fun b => b.ext.monoTol) f.eq
  obtain ⟨p, q, lacking, hfind, ⟨hn, _⟩ | ⟨m', p', q', hm', _, hs, hprep, _⟩⟩ := measureEcc_ok R.h_measure
  · rw [hn] at hm; cases hm
  rw [hm'] at hm
  cases hm
  obtain ⟨_, _, _, _, _, _, _, _, _, g1, g2⟩ := prepare_ok hprep
  rw [← e2] at htol ⊢
  intro curve hc
  simp only [List.mem_cons, List.not_mem_nil, or_false] at hc
  rcases hc with rfl | rfl
  · exact extremaInterpolant_strict e1 htol g1
  · exact extremaInterpolant_strict e1 htol g2

/-- The strict call of the example returns; it uses four extrema of each kind. -/
example : 0 < RunDemo.lib.wave.pi ∧ 0 < RunDemo.lib.monoTol ∧ (withLevel RunDemo.call 2).level = 2 ∧
    (run 60 RunDemo.lib (withLevel RunDemo.call 2)).map (·.map fun r => r.meas.map fun m => (m.pericenters, m.apocenters)) =
      some (.ok (some ([2, 6, 10, 14], [4, 8, 12, 16]))) :=
  ⟨by decide +kernel, by decide +kernel, rfl, by decide +kernel⟩

end GwEcc
