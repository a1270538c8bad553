import Verif.Lemmas.Segment
import Verif.Lemmas.Postprocess
import Verif.Props.DataDict

/-!
# C37: residual amplitude and frequency

The residuals are taken after aligning the mergers: they do not depend on the time origin of the quasicircular waveform,
vanish when it is the eccentric one, and a quasicircular waveform that starts late or ends before merger is rejected.
-/

set_option linter.unusedSectionVars false

namespace GwEcc

open Spec

/-- The quasicircular waveform in the data: times, amplitude, frequency and total amplitude of all modes. -/
structure Spec.Quasi (K : Type) where
  t : List K
  amp : List K
  omega : List K
  total : List K

/-- `z` is the quasicircular waveform in the data. -/
def Spec.IsQuasi {K C : Type} [Field K] [LinearOrder K] (lib : WaveLib K C) (precessing : Bool) (v : DataV K C)
    (z : Quasi K) : Prop :=
  ∃ a om ph, v.get? "amplm_zeroecc" = some (.modesR a) ∧ v.get? "omegalm_zeroecc" = some om ∧
    v.get? "t_zeroecc" = some (.arr z.t) ∧ lib.totalAmp (a.map Prod.snd) = .ok z.total ∧
    gwQuantities precessing v "_zeroecc" = .ok (z.amp, ph, z.omega)

/-- The time at which a sample at `x` is used when its merger `tm` is moved to `tMerger`. -/
def Spec.aligned {K : Type} [Field K] (tm tMerger x : K) : K := x - tm + tMerger

section
variable {K C : Type} [Field K] [LinearOrder K] [IsStrictOrderedRing K]
variable (lib : WaveLib K C) (tol : K) (eval : InterpCall → List K → List K → K → Py K) (kw : SplineKwargs)
  (precessing : Bool)

theorem diff_shift (b : K) : ∀ l : List K, diff (l.map (· + b)) = diff l
  | [] => rfl
  | [_] => rfl
  | a :: c :: l => by
    have := diff_shift b (c :: l)
    simp only [List.map_cons] at this ⊢
    unfold diff
    rw [this]
    congr 1
    ring

theorem peakTime_shift (t func : List K) (b : K) :
    peakTime (t.map (· + b)) func = (peakTime t func).map (fun r => (r.1 + b, r.2)) := by
  have := C17_time_affine t func 1 b one_pos
  simpa using this

/-- The residuals do not change when the times of the quasicircular waveform are all shifted by `b`; its merger time is
reported shifted. -/
theorem C37_origin (v : DataV K C) (tMerger : K) (w : Wave K) (tZ : List K) (b : K)
    (ht : v.get? "t_zeroecc" = some (.arr tZ)) :
    residualData lib tol eval kw precessing (v.set "t_zeroecc" (.arr (tZ.map (· + b)))) tMerger w =
      (residualData lib tol eval kw precessing v tMerger w).map
        (Option.map fun r => { r with tMergerZ := r.tMergerZ + b }) := by
  have hother : ∀ key, key ≠ "t_zeroecc" →
      (Dict.set v "t_zeroecc" (Entry.arr (tZ.map (· + b)))).get? key = v.get? key := by
    intro key hk
    rw [Dict.get?_set, if_neg hk]
  have hhas : ∀ key, key ≠ "t_zeroecc" →
      (Dict.set v "t_zeroecc" (Entry.arr (tZ.map (· + b)))).has key = v.has key := by
    intro key hk
    unfold Dict.has
    rw [hother key hk]
  have hR : ∀ key, key ≠ "t_zeroecc" → getR (Dict.set v "t_zeroecc" (Entry.arr (tZ.map (· + b)))) key = getR v key := by
    intro key hk
    unfold getR Dict.getItem
    rw [hother key hk]
  have hgw : gwQuantities precessing (Dict.set v "t_zeroecc" (Entry.arr (tZ.map (· + b)))) "_zeroecc" =
      gwQuantities precessing v "_zeroecc" := by
    unfold gwQuantities
    rw [hR _ (by decide), hR _ (by decide), hR _ (by decide)]
  have hset : getArr (Dict.set v "t_zeroecc" (Entry.arr (tZ.map (· + b)))) "t_zeroecc" = .ok (tZ.map (· + b)) :=
    getArr_of (by rw [Dict.get?_set, if_pos rfl])
  have hsteps : checkSteps (tZ.map (· + b)) = checkSteps tZ := by unfold checkSteps; rw [diff_shift]
  have hcore : ∀ ampZ omegaZ totalZ : List K, residualCore tol eval kw tMerger w (tZ.map (· + b)) ampZ omegaZ totalZ =
      (residualCore tol eval kw tMerger w tZ ampZ omegaZ totalZ).map fun r => { r with tMergerZ := r.tMergerZ + b } := by
    intro ampZ omegaZ totalZ
    unfold residualCore
    rw [peakTime_shift]
    cases peakTime tZ totalZ with
    | error e => rfl
    | ok r =>
      obtain ⟨tm, fm⟩ := r
      have hsh : (tZ.map (· + b)).map (fun x => x - (tm + b) + tMerger) = tZ.map fun x => x - tm + tMerger := by
        rw [List.map_map]
        apply List.map_congr_left
        intro x _
        simp only [Function.comp]
        ring
      simp only [Except.map, bind, Except.bind]
      rw [hsh]
      cases pyGet (tZ.map fun x => x - tm + tMerger) 0 with
      | error e => rfl
      | ok s0 =>
      dsimp only
      cases pyGet w.t 0 with
      | error e => rfl
      | ok t0 =>
      dsimp only
      split
      · rfl
      cases pyLast (tZ.map fun x => x - tm + tMerger) with
      | error e => rfl
      | ok sN =>
      dsimp only
      split
      · rfl
      cases interpolate tol eval w.t (tZ.map fun x => x - tm + tMerger) ampZ true .spline kw true with
      | error e => rfl
      | ok a =>
      dsimp only
      cases npZip (· - ·) w.amp a with
      | error e => rfl
      | ok ra =>
      dsimp only
      cases interpolate tol eval w.t (tZ.map fun x => x - tm + tMerger) omegaZ true .spline kw true with
      | error e => rfl
      | ok o =>
      dsimp only
      cases npZip (· - ·) w.omega o with
      | error e => rfl
      | ok ro => rfl
  unfold residualData
  rw [hhas _ (by decide), hhas _ (by decide)]
  split
  · rw [hset, getArr_of ht, ok_bind, ok_bind, hsteps, hgw, hR _ (by decide)]
    cases checkSteps tZ with
    | error e => rfl
    | ok _ =>
    cases gwQuantities precessing v "_zeroecc" with
    | error e => rfl
    | ok q =>
    obtain ⟨ampZ, ph, omegaZ⟩ := q
    cases getR v "amplm_zeroecc" with
    | error e => rfl
    | ok a =>
    simp only [bind, Except.bind]
    cases lib.totalAmp (a.map Prod.snd) with
    | error e => rfl
    | ok totalZ =>
    dsimp only
    rw [hcore]
    cases residualCore tol eval kw tMerger w tZ ampZ omegaZ totalZ with
    | error e => rfl
    | ok r => rfl
  · rfl

/-- What is computed from a quasicircular waveform in the data. -/
theorem residualData_eq {v : DataV K C} {z : Quasi K} (hz : IsQuasi lib precessing v z) (tMerger : K) (w : Wave K) :
    residualData lib tol eval kw precessing v tMerger w =
      (checkSteps z.t >>= fun _ => residualCore tol eval kw tMerger w z.t z.amp z.omega z.total >>= fun r => pure (some r)) := by
  obtain ⟨a, om, ph, h1, h2, h3, h4, h5⟩ := hz
  unfold residualData
  have e1 : Dict.has v "amplm_zeroecc" = true := by unfold Dict.has; rw [h1]; rfl
  have e2 : Dict.has v "omegalm_zeroecc" = true := by unfold Dict.has; rw [h2]; rfl
  rw [e1, e2, getArr_of h3, ok_bind, h5, getR_of h1]
  simp only [Bool.and_self, if_true]
  cases checkSteps z.t with
  | error e => rfl
  | ok _ =>
    simp only [ok_bind]
    rw [h4, ok_bind]

/-- The quasicircular waveform is rejected if, mergers aligned, it starts after the eccentric waveform or ends before the
merger. -/
theorem C37_rejected (v : DataV K C) (z : Quasi K) (hz : IsQuasi lib precessing v z) (tMerger tm fm : K) (w : Wave K)
    (hpeak : peakTime z.t z.total = .ok (tm, fm)) (z0 zN t0 : K) (hz0 : z.t.head? = some z0) (hzN : z.t.getLast? = some zN)
    (ht0 : w.t.head? = some t0) (hbad : t0 < aligned tm tMerger z0 ∨ aligned tm tMerger zN < tMerger) :
    ∃ e, residualData lib tol eval kw precessing v tMerger w = .error e := by
  rw [residualData_eq lib tol eval kw precessing hz]
  cases checkSteps z.t with
  | error e => exact ⟨e, rfl⟩
  | ok _ =>
    refine ⟨.exception, ?_⟩
    rw [ok_bind]
    unfold residualCore
    rw [hpeak, ok_bind]
    dsimp only
    have e0 : pyGet (z.t.map fun x => x - tm + tMerger) 0 = .ok (aligned tm tMerger z0) := by
      rw [List.head?_eq_getElem?] at hz0
      unfold pyGet
      rw [List.getElem?_map, hz0]
      rfl
    have e1 : pyGet w.t 0 = .ok t0 := by
      rw [List.head?_eq_getElem?] at ht0
      unfold pyGet
      rw [ht0]
    have e2 : pyLast (z.t.map fun x => x - tm + tMerger) = .ok (aligned tm tMerger zN) := by
      unfold pyLast
      rw [List.getLast?_map, hzN]
      rfl
    rw [e0, ok_bind, e1, ok_bind, e2]
    rcases hbad with hb | hb
    · rw [if_pos hb]; rfl
    · split
      · rfl
      · rw [ok_bind, if_pos hb]; rfl

theorem mapM_getElem? {α β : Type} {f : α → Py β} : ∀ {l : List α} {r : List β}, l.mapM f = .ok r →
    r.length = l.length ∧ ∀ (i : ℕ) (x : α), l[i]? = some x → ∃ y, f x = .ok y ∧ r[i]? = some y
  | [], r, h => by cases h; simp
  | a :: l, r, h => by
    rw [List.mapM_cons] at h
    obtain ⟨b, h1, h⟩ := bind_ok h
    obtain ⟨bs, h2, h⟩ := bind_ok h
    cases h
    obtain ⟨h3, h4⟩ := mapM_getElem? h2
    refine ⟨by simp [h3], fun i x hx => ?_⟩
    cases i with
    | zero => simp only [List.getElem?_cons_zero, Option.some.injEq] at hx; subst hx; exact ⟨b, h1, rfl⟩
    | succ i => simpa using h4 i x (by simpa using hx)

theorem interpolate_extrap_ok {newX oldX oldY r : List K} (h : interpolate tol eval newX oldX oldY true .spline kw true = .ok r) :
    oldY.length = oldX.length ∧ oldX.Pairwise (· < ·) ∧ ∃ call, newX.mapM (eval call oldX oldY) = .ok r := by
  unfold interpolate at h
  split at h
  · cases h
  rename_i hl
  push Not at hl
  simp only [if_true] at h
  obtain ⟨q, hq, h⟩ := bind_ok h
  refine ⟨hl, ?_, q.1, h⟩
  unfold getInterpolant at hq
  split at hq
  · cases hq
  · rename_i hd
    push Not at hd
    exact (diff_pos_iff oldX).mp hd

/-- The residual at each sample: the value of the eccentric waveform minus the interpolated quasicircular one at the same
time, mergers aligned.  Up to the merger the quasicircular waveform is not extrapolated. -/
theorem C37_value (v : DataV K C) (z : Quasi K) (hz : IsQuasi lib precessing v z) (tMerger : K) (w : Wave K)
    (o : Option (Residual K)) (h : residualData lib tol eval kw precessing v tMerger w = .ok o) :
    ∃ r fm callA callO, o = some r ∧ peakTime z.t z.total = .ok (r.tMergerZ, fm) ∧
      r.resAmp.length = w.amp.length ∧ r.resOmega.length = w.omega.length ∧
      (∀ (i : ℕ) (x a : K), w.t[i]? = some x → w.amp[i]? = some a →
        ∃ y, eval callA (z.t.map (aligned r.tMergerZ tMerger)) z.amp x = .ok y ∧ r.resAmp[i]? = some (a - y)) ∧
      (∀ (i : ℕ) (x a : K), w.t[i]? = some x → w.omega[i]? = some a →
        ∃ y, eval callO (z.t.map (aligned r.tMergerZ tMerger)) z.omega x = .ok y ∧ r.resOmega[i]? = some (a - y)) ∧
      ∃ z0 zN t0, z.t.head? = some z0 ∧ z.t.getLast? = some zN ∧ w.t.head? = some t0 ∧
        aligned r.tMergerZ tMerger z0 ≤ t0 ∧ tMerger ≤ aligned r.tMergerZ tMerger zN ∧
        (w.t.Pairwise (· ≤ ·) → ∀ x ∈ w.t, x ≤ tMerger →
          aligned r.tMergerZ tMerger z0 ≤ x ∧ x ≤ aligned r.tMergerZ tMerger zN) := by
  rw [residualData_eq lib tol eval kw precessing hz] at h
  obtain ⟨_, _, h⟩ := bind_ok h
  obtain ⟨r, hr, h⟩ := bind_ok h
  cases h
  unfold residualCore at hr
  obtain ⟨⟨tm, fm⟩, hp, hr⟩ := bind_ok hr
  dsimp only at hr
  obtain ⟨s0, e0, hr⟩ := bind_ok hr
  obtain ⟨t0, e1, hr⟩ := bind_ok hr
  split at hr
  · cases hr
  rename_i c1
  obtain ⟨sN, e2, hr⟩ := bind_ok hr
  split at hr
  · cases hr
  rename_i c2
  obtain ⟨a, ha, hr⟩ := bind_ok hr
  obtain ⟨ra, hra, hr⟩ := bind_ok hr
  obtain ⟨b, hb, hr⟩ := bind_ok hr
  obtain ⟨ro, hro, hr⟩ := bind_ok hr
  cases hr
  obtain ⟨_, _, callA, hmA⟩ := interpolate_extrap_ok tol eval kw ha
  obtain ⟨_, _, callO, hmO⟩ := interpolate_extrap_ok tol eval kw hb
  obtain ⟨lA, gA⟩ := mapM_getElem? hmA
  obtain ⟨lO, gO⟩ := mapM_getElem? hmO
  unfold npZip at hra hro
  split at hra
  swap
  · cases hra
  split at hro
  swap
  · cases hro
  rename_i q1 q2
  cases hra; cases hro
  have e0 := pyGet_getElem? e0
  have e1 := pyGet_getElem? e1
  obtain ⟨_, e2⟩ := pyLast_ok' e2
  rw [List.length_map] at e2
  rw [List.getElem?_map, Option.map_eq_some_iff] at e0 e2
  obtain ⟨z0, f0, rfl⟩ := e0
  obtain ⟨zN, f2, rfl⟩ := e2
  push Not at c1 c2
  refine ⟨_, fm, callA, callO, rfl, hp, by simp [q1], by simp [q2], ?_, ?_, z0, zN, t0,
    by rw [List.head?_eq_getElem?]; exact f0, by rw [List.getLast?_eq_getElem?]; exact f2,
    by rw [List.head?_eq_getElem?]; exact e1, c1, c2, ?_⟩
  · intro i x am hx hi
    obtain ⟨y, hy1, hy2⟩ := gA i x hx
    exact ⟨y, hy1, by simp [List.getElem?_zipWith, hi, hy2]⟩
  · intro i x am hx hi
    obtain ⟨y, hy1, hy2⟩ := gO i x hx
    exact ⟨y, hy1, by simp [List.getElem?_zipWith, hi, hy2]⟩
  · intro ht x hx hxm
    obtain ⟨k, hk, rfl⟩ := List.getElem_of_mem hx
    have := mono_getElem? ht e1 (List.getElem?_eq_getElem hk) (Nat.zero_le _)
    exact ⟨le_trans c1 this, le_trans hxm c2⟩

theorem mapM_of_getElem? {α β : Type} {f : α → Py β} : ∀ {l : List α} {r : List β}, r.length = l.length →
    (∀ (i : ℕ) (x : α) (y : β), l[i]? = some x → r[i]? = some y → f x = .ok y) → l.mapM f = .ok r
  | [], r, h, _ => by cases r <;> simp_all [pure, Except.pure]
  | a :: l, [], h, _ => by simp at h
  | a :: l, b :: r, h, hf => by
    rw [List.mapM_cons, hf 0 a b rfl rfl, ok_bind, mapM_of_getElem? (by simpa using h)
      (fun i x y hx hy => hf (i + 1) x y (by simpa using hx) (by simpa using hy))]
    rfl

/-- The eccentric waveform is the quasicircular one, or a piece `s, ..., e-1` of it, with its merger at another time: it is
accepted and all residuals are 0.  The interpolant is assumed to pass through its nodes. -/
theorem C37_same (heval : ∀ call (xs ys : List K) (j : ℕ) (x y : K), xs.Pairwise (· < ·) → ys.length = xs.length →
      xs[j]? = some x → ys[j]? = some y → eval call xs ys x = .ok y)
    (v : DataV K C) (z : Quasi K) (hz : IsQuasi lib precessing v z) (tMerger tm fm : K)
    (hpeak : peakTime z.t z.total = .ok (tm, fm)) (hsteps : checkSteps z.t = .ok ()) (hinc : z.t.Pairwise (· < ·))
    (h2 : 2 ≤ z.t.length) (hamp : z.amp.length = z.t.length) (homega : z.omega.length = z.t.length)
    (hend : ∃ x ∈ z.t, tm ≤ x) (w : Wave K) (ph : List K) (s e : ℕ) (hse : s < e)
    (hw : IsPiece ⟨z.t.map (aligned tm tMerger), z.amp, ph, z.omega⟩ w s e) :
    ∃ r, residualData lib tol eval kw precessing v tMerger w = .ok (some r) ∧ r.tMergerZ = tm ∧
      r.resAmp = List.replicate (e - s) 0 ∧ r.resOmega = List.replicate (e - s) 0 := by
  obtain ⟨he, w1, w2, _, w4⟩ := hw
  dsimp only at he w1 w2 w4
  rw [List.length_map] at he
  have hshift : (z.t.map fun x => x - tm + tMerger) = z.t.map (aligned tm tMerger) := rfl
  set sh := z.t.map (aligned tm tMerger) with hsh
  have hshl : sh.length = z.t.length := by rw [hsh, List.length_map]
  have hlen : ∀ (l l' : List K), l.length = z.t.length → (∀ k, l'[k]? = if s + k < e then l[s + k]? else none) →
      l'.length = e - s := by
    intro l l' hl hk
    apply le_antisymm
    · by_contra hc
      have h3 := hk (e - s)
      rw [if_neg (by omega)] at h3
      have := List.getElem?_eq_none_iff.mp h3
      omega
    · by_contra hc
      have h3 := hk l'.length
      rw [if_pos (by omega), List.getElem?_eq_none_iff.mpr (le_refl _)] at h3
      have := List.getElem?_eq_none_iff.mp h3.symm
      omega
  have lt := hlen sh w.t hshl w1
  have la := hlen z.amp w.amp hamp w2
  have lo := hlen z.omega w.omega homega w4
  have hpw : sh.Pairwise (· < ·) := by
    rw [hsh, List.pairwise_map]
    refine hinc.imp fun {a b} hab => ?_
    unfold aligned
    linarith
  have hintp : ∀ ys wy : List K, ys.length = z.t.length → (∀ k, wy[k]? = if s + k < e then ys[s + k]? else none) →
      interpolate tol eval w.t sh ys true .spline kw true = .ok wy := by
    intro ys wy hys hwy
    have lwy := hlen ys wy hys hwy
    unfold interpolate
    rw [if_neg (by rw [hys, hshl]; simp)]
    simp only [if_true]
    have hgi : ∃ q, getInterpolant sh true .spline kw true = .ok q := by
      unfold getInterpolant
      rw [if_neg (not_not.mpr ((diff_pos_iff sh).mpr hpw))]
      dsimp only
      rw [if_pos (by omega)]
      exact ⟨_, rfl⟩
    obtain ⟨q, hq⟩ := hgi
    rw [hq]
    simp only [ok_bind]
    refine mapM_of_getElem? (by omega) fun i x y hx hy => ?_
    rw [w1] at hx
    rw [hwy] at hy
    split at hx
    · rename_i hi
      rw [if_pos hi] at hy
      exact heval _ _ _ (s + i) x y hpw (by omega) hx hy
    · cases hx
  obtain ⟨x0, hx0⟩ : ∃ x, w.t[0]? = some x := ⟨_, List.getElem?_eq_getElem (by omega)⟩
  have e0 : pyGet sh 0 = .ok sh[0] := pyGet_of_getElem? (List.getElem?_eq_getElem (by omega))
  have e1 : pyGet w.t 0 = .ok x0 := pyGet_of_getElem? hx0
  have e2 : pyLast sh = .ok sh[sh.length - 1] := by
    unfold pyLast
    rw [List.getLast?_eq_getElem?, List.getElem?_eq_getElem (by omega)]
  have hpl : sh.Pairwise (· ≤ ·) := hpw.imp fun {a b} hab => le_of_lt hab
  have c1 : ¬ x0 < sh[0] := by
    have hx := w1 0
    rw [hx0, if_pos (by omega)] at hx
    exact not_lt.mpr (mono_getElem? hpl (List.getElem?_eq_getElem (by omega)) hx.symm (Nat.zero_le _))
  have c2 : ¬ sh[sh.length - 1] < tMerger := by
    obtain ⟨x, hx, hle⟩ := hend
    obtain ⟨k, hk, rfl⟩ := List.getElem_of_mem hx
    have h3 : sh[k]? = some (aligned tm tMerger z.t[k]) := by rw [hsh, List.getElem?_map, List.getElem?_eq_getElem hk]; rfl
    have h4 : aligned tm tMerger z.t[k] ≤ sh[sh.length - 1] :=
      mono_getElem? hpl h3 (List.getElem?_eq_getElem (by omega)) (by omega)
    unfold aligned at h4
    linarith
  have hz0 : ∀ l : List K, l.length = e - s → npZip (· - ·) l l = .ok (List.replicate (e - s) 0) := by
    intro l hl
    unfold npZip
    rw [if_pos rfl]
    congr 1
    apply List.ext_getElem
    · simp [hl]
    · intro i h1 h2; simp
  rw [residualData_eq lib tol eval kw precessing hz, hsteps, ok_bind]
  unfold residualCore
  rw [hpeak]
  simp only [ok_bind]
  rw [hshift, e0, ok_bind, e1, ok_bind, if_neg c1, e2, ok_bind, if_neg c2, hintp _ _ hamp w2, ok_bind, hz0 _ la, ok_bind,
    hintp _ _ homega w4, ok_bind, hz0 _ lo, ok_bind]
  exact ⟨_, rfl, rfl, rfl, rfl⟩

end

/-! ### A case -/

namespace ResidualDemo

/-- Library for data with one mode. -/
def lib : WaveLib ℚ ℚ where
  pi := 22 / 7
  zero := 0
  abs := fun l => l.map abs
  phase := fun l => l
  polar := fun a p => npZip (fun x _ => x) a p
  rotate := fun _ l => .ok l
  totalAmp := fun l => match l with
    | [a] => .ok a
    | _ => .error .valueError

/-- The value at a node, 0 elsewhere. -/
def eval (_ : InterpCall) (xs ys : List ℚ) (x : ℚ) : Py ℚ := .ok (ys.getD (xs.idxOf x) 0)

theorem eval_nodes (call : InterpCall) (xs ys : List ℚ) (j : ℕ) (x y : ℚ) (h : xs.Pairwise (· < ·))
    (_ : ys.length = xs.length) (hx : xs[j]? = some x) (hy : ys[j]? = some y) : eval call xs ys x = .ok y := by
  unfold eval
  obtain ⟨hj, rfl⟩ := List.getElem?_eq_some_iff.mp hx
  have hnd : xs.Nodup := h.imp fun {a b} hab => ne_of_lt hab
  rw [hnd.idxOf_getElem j hj, List.getD_eq_getElem?_getD, hy]
  rfl

/-- Amplitude with its maximum at time 5. -/
def z : Quasi ℚ := ⟨[0, 1, 2, 3, 4, 5, 6], [10, 26, 35, 42, 45, 46, 45], [1, 2, 3, 4, 5, 6, 7], [10, 26, 35, 42, 45, 46, 45]⟩

/-- The data. -/
def v : DataV ℚ ℚ := [("t_zeroecc", .arr z.t), ("amplm_zeroecc", .modesR [((2, 2), z.amp)]),
  ("phaselm_zeroecc", .modesR [((2, 2), z.t)]), ("omegalm_zeroecc", .modesR [((2, 2), z.omega)])]

example : IsQuasi lib false v z :=
  ⟨_, _, _, rfl, rfl, rfl, rfl, rfl⟩

/-- Merger time of the quasicircular waveform. -/
def tm : ℚ := (peakTime z.t z.total).toOption.get!.1

/-- The eccentric waveform: samples 1 to 4 with the merger at time 100. -/
def w : Wave ℚ := ⟨[1 - tm + 100, 2 - tm + 100, 3 - tm + 100], [26, 35, 42], [1, 2, 3], [2, 3, 4]⟩

example : checkSteps z.t = .ok () ∧ z.t.Pairwise (· < ·) ∧ 2 ≤ z.t.length ∧ z.amp.length = z.t.length ∧
    z.omega.length = z.t.length ∧ (∃ x ∈ z.t, tm ≤ x) ∧ (peakTime z.t z.total).map (·.1) = .ok tm := by
  decide +kernel

example : (residualData lib 0 eval {} false v 100 w).map (Option.map fun r => (r.tMergerZ, r.resAmp, r.resOmega)) =
    .ok (some (tm, [0, 0, 0], [0, 0, 0])) := by decide +kernel

/-- Aligning the mergers, the eccentric waveform would start first. -/
example : residualData lib 0 eval {} false v 100 { w with t := [90, 91, 92] } = .error .exception := by decide +kernel

end ResidualDemo

end GwEcc
