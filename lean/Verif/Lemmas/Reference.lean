import Verif.Spec.Reference
import Verif.Props.Options
import Verif.Lemmas.WholeCall

set_option linter.unusedSectionVars false

/-!
# Calls that differ in the reference points only
-/

namespace GwEcc

open Spec

namespace Points

section object
variable {K : Type} [Field K] [LinearOrder K] [FloorRing K]

/-- The object with other reference points. -/
def turn (o : Obj K) (d : Domain) (r : Val K) : Obj K := { o with domain := d, refIn := r }

theorem findBoth_turn (e : Ext K) (o : Obj K) (d : Domain) (r : Val K) : findBoth e (turn o d r) = findBoth e o := rfl

theorem settle_turn (e : Ext K) (o : Obj K) (d : Domain) (r : Val K) (p a : List ℕ) :
    settleExtrema e (turn o d r) p a = settleExtrema e o p a := rfl

theorem interp_turn (e : Ext K) (o : Obj K) (d : Domain) (r : Val K) (ty : ExtType) (p a : List ℕ) (tc : List K) :
    extremaInterpolant e (turn o d r) ty p a tc = extremaInterpolant e o ty p a tc := rfl

theorem prepare_turn (e : Ext K) (o : Obj K) (d : Domain) (r : Val K) (p a : List ℕ) :
    prepare e (turn o d r) p a = (prepare e o p a).map fun m => { m with o := turn o d r } := by
  unfold prepare
  simp only [interp_turn, show (turn o d r).t = o.t from rfl, show (turn o d r).dataT = o.dataT from rfl]
  cases pyLast (takeAt o.t p) with
  | error _ => rfl
  | ok _ =>
  cases pyLast (takeAt o.t a) with
  | error _ => rfl
  | ok _ =>
  cases pyGet (takeAt o.t p) 0 with
  | error _ => rfl
  | ok _ =>
  cases pyGet (takeAt o.t a) 0 with
  | error _ => rfl
  | ok _ =>
  simp only [ok_bind]
  generalize extremaInterpolant e o .pericenters p a _ = x
  cases x with
  | error _ => rfl
  | ok _ =>
  simp only [ok_bind]
  generalize extremaInterpolant e o .apocenters p a _ = x
  cases x <;> rfl

theorem prepare_obj {e : Ext K} {o : Obj K} {p a : List ℕ} {m : Meas K} (h : prepare e o p a = .ok m) : m.o = o := by
  unfold prepare at h
  obtain ⟨_, _, h⟩ := bind_ok h
  obtain ⟨_, _, h⟩ := bind_ok h
  obtain ⟨_, _, h⟩ := bind_ok h
  obtain ⟨_, _, h⟩ := bind_ok h
  obtain ⟨_, _, h⟩ := bind_ok h
  obtain ⟨_, _, h⟩ := bind_ok h
  rw [← Except.ok.inj h]

/-- The measurement with other reference points. -/
def turnM (m : Meas K) (d : Domain) (r : Val K) : Meas K := { m with o := turn m.o d r }

/-- What a measurement returns, given where it got to before it looked at the reference points. -/
inductive Stage (e : Ext K) (o : Obj K) : Prop
  | zero (h : ∀ d r, measureEcc e (turn o d r) none = (setToZero (turn o d r)).map fun x => (x, none, none))
  | meas (m : Meas K) (p a : List ℕ) (hm : prepare e o p a = .ok m) (h : ∀ d r, measureEcc e (turn o d r) none =
      (evaluate e (turnM m d r) none).map fun x => (x.1, some (turnM m d r), x.2))

theorem stage {e : Ext K} {o : Obj K} {d : Domain} {r : Val K} {x : Dict String (Val K) × Option (Meas K) × AvgCache K}
    (h : measureEcc e (turn o d r) none = .ok x) : Stage e o := by
  obtain ⟨ret, mo, c⟩ := x
  obtain ⟨p, a, lacking, hf, hc⟩ := measureEcc_ok h
  rw [findBoth_turn] at hf
  rcases hc with ⟨-, -, hl, -⟩ | ⟨m, p', a', -, hl, hs, hp, -⟩
  · refine .zero fun d' r' => ?_
    unfold measureEcc
    rw [findBoth_turn, hf]
    simp only [ok_bind]
    rw [if_pos (by exact hl)]
    cases setToZero (turn o d' r') <;> rfl
  · rw [settle_turn] at hs
    rw [prepare_turn] at hp
    cases hm : prepare e o p' a' with
    | error err => rw [hm] at hp; cases hp
    | ok m0 =>
      refine .meas m0 p' a' hm fun d' r' => ?_
      unfold measureEcc
      rw [findBoth_turn, hf]
      simp only [ok_bind]
      rw [if_neg (by rw [show (turn o d' r').returnZero = (turn o d r).returnZero from rfl, hl]; simp), settle_turn, hs]
      simp only [ok_bind]
      rw [prepare_turn, hm]
      show (evaluate e _ none >>= _) = _
      beta_reduce
      rw [show ({ m0 with o := turn o d' r' } : Meas K) = turnM m0 d' r' by unfold turnM; rw [prepare_obj hm]]
      cases evaluate e (turnM m0 d' r') none <;> rfl

theorem ecc_turn (e : Ext K) (m : Meas K) (d : Domain) (r : Val K) (ts : List K) :
    computeEccentricity e (turnM m d r) ts = computeEccentricity e m ts := rfl

theorem ano_turn (e : Ext K) (m : Meas K) (d : Domain) (r : Val K) (ts : List K) :
    computeMeanAnomaly e (turnM m d r) ts = computeMeanAnomaly e m ts := rfl

theorem mono_turn (e : Ext K) (m : Meas K) (d : Domain) (r : Val K) :
    checkMonotonicity e (turnM m d r) = checkMonotonicity e m := rfl

theorem avg_turn (e : Ext K) (m : Meas K) (d : Domain) (r : Val K) (s : Option String) :
    omegaAverage e (turnM m d r) s = omegaAverage e m s := rfl

/-! ### Values as functions -/

/-- The value of a computation, 0 if it raises. -/
def val : Py K → K
  | .ok x => x
  | .error _ => 0

theorem mapM_val {f : K → Py K} : ∀ {l r : List K}, l.mapM f = .ok r → r = l.map fun x => val (f x)
  | [], r, h => by simp [List.mapM_nil, pure, Except.pure] at h; subst h; rfl
  | x :: l, r, h => by
    rw [List.mapM_cons] at h
    obtain ⟨y, h1, h⟩ := bind_ok h
    obtain ⟨ys, h2, h⟩ := bind_ok h
    rw [← Except.ok.inj h, List.map_cons, h1, ← mapM_val h2]
    rfl

theorem mapM_ok_iff {f : K → Py K} : ∀ {l : List K}, (∃ r, l.mapM f = .ok r) ↔ ∀ x ∈ l, ∃ y, f x = .ok y
  | [] => by simp [List.mapM_nil, pure, Except.pure]
  | x :: l => by
    rw [List.mapM_cons]
    constructor
    · rintro ⟨r, h⟩
      obtain ⟨y, h1, h⟩ := bind_ok h
      obtain ⟨ys, h2, h⟩ := bind_ok h
      intro z hz
      rcases List.mem_cons.mp hz with rfl | hz
      · exact ⟨y, h1⟩
      · exact mapM_ok_iff.mp ⟨ys, h2⟩ z hz
    · intro h
      obtain ⟨y, hy⟩ := h x (by simp)
      obtain ⟨ys, hys⟩ := mapM_ok_iff.mpr fun z hz => h z (List.mem_cons_of_mem _ hz)
      rw [hy, hys]
      exact ⟨y :: ys, rfl⟩

/-- The eccentricity at a time, as a function. -/
def eccAt (e : Ext K) (m : Meas K) (x : K) : K := e.eccOf (val (m.interpP x)) (val (m.interpA x))

/-- The mean anomaly at a time, as a function. -/
def anoAt (e : Ext K) (m : Meas K) (x : K) : K :=
  pyMod (val (npInterp x (m.tPeri.zip ((List.range m.tPeri.length).map (fun i : ℕ => (i : K) * 2 * e.pi))))) (2 * e.pi)

/-- The interpolants can be evaluated at a time. -/
def Fine (e : Ext K) (m : Meas K) (x : K) : Prop :=
  (m.tmin ≤ x ∧ x ≤ m.tmax) ∧ (∃ y, m.interpP x = .ok y) ∧ (∃ y, m.interpA x = .ok y) ∧
    ∃ y, npInterp x (m.tPeri.zip ((List.range m.tPeri.length).map (fun i : ℕ => (i : K) * 2 * e.pi))) = .ok y

theorem zip_map (f g : K → K) (h : K → K → K) : ∀ l : List K,
    List.zipWith h (l.map f) (l.map g) = l.map fun x => h (f x) (g x)
  | [] => rfl
  | x :: l => by simp [zip_map f g h l]

theorem both_ok {e : Ext K} {m : Meas K} {ts ecc ano : List K} (h1 : computeEccentricity e m ts = .ok ecc)
    (h2 : computeMeanAnomaly e m ts = .ok ano) :
    ecc = ts.map (eccAt e m) ∧ ano = ts.map (anoAt e m) ∧ ∀ x ∈ ts, Fine e m x := by
  unfold computeEccentricity at h1
  obtain ⟨_, hl, h1⟩ := bind_ok h1
  obtain ⟨wp, hp, h1⟩ := bind_ok h1
  obtain ⟨wa, ha, h1⟩ := bind_ok h1
  unfold computeMeanAnomaly at h2
  obtain ⟨_, _, h2⟩ := bind_ok h2
  obtain ⟨v, hv, h2⟩ := bind_ok h2
  have hl' := (checkInputLimits_ok_iff ts m.tmin m.tmax).mp hl
  refine ⟨?_, ?_, fun x hx => ⟨hl' x hx, mapM_ok_iff.mp ⟨wp, hp⟩ x hx, mapM_ok_iff.mp ⟨wa, ha⟩ x hx,
    mapM_ok_iff.mp ⟨v, hv⟩ x hx⟩⟩
  · rw [← Except.ok.inj h1, mapM_val hp, mapM_val ha, zip_map]; rfl
  · rw [← Except.ok.inj h2, mapM_val hv, List.map_map]; rfl

theorem both_of {e : Ext K} {m : Meas K} {ts : List K} (h : ∀ x ∈ ts, Fine e m x) :
    computeEccentricity e m ts = .ok (ts.map (eccAt e m)) ∧ computeMeanAnomaly e m ts = .ok (ts.map (anoAt e m)) := by
  have hl := (checkInputLimits_ok_iff ts m.tmin m.tmax).mpr fun x hx => (h x hx).1
  obtain ⟨wp, hp⟩ := mapM_ok_iff.mpr fun x hx => (h x hx).2.1
  obtain ⟨wa, ha⟩ := mapM_ok_iff.mpr fun x hx => (h x hx).2.2.1
  obtain ⟨v, hv⟩ := mapM_ok_iff.mpr fun x hx => (h x hx).2.2.2
  have e1 : ∃ ecc, computeEccentricity e m ts = .ok ecc := by
    unfold computeEccentricity
    rw [hl]; simp only [ok_bind]; rw [hp]; simp only [ok_bind]; rw [ha]; exact ⟨_, rfl⟩
  have e2 : ∃ ano, computeMeanAnomaly e m ts = .ok ano := by
    unfold computeMeanAnomaly
    rw [hl]; simp only [ok_bind]; rw [hv]; exact ⟨_, rfl⟩
  obtain ⟨ecc, e1⟩ := e1
  obtain ⟨ano, e2⟩ := e2
  obtain ⟨rfl, rfl, -⟩ := both_ok e1 e2
  exact ⟨e1, e2⟩

/-- The checks on the numbers that are independent of where they are returned: the eccentricity decreases and, at the strict
level, no value is negative. -/
def Accepted (e : Ext K) (m : Meas K) (ts : List K) : Prop :=
  (∃ o, checkMonotonicity e m = .ok o) ∧ ∃ o, (if (ts.map (eccAt e m)).any (fun x => decide (x < 0)) then
    debugMessage m.o.level true true else pure .silent) = .ok o

/-- The order of the entries returned. -/
def outDict (d : Domain) (scalar : Bool) (ecc ano ref : List K) : Py (Dict String (Val K)) := makeReturn d scalar ecc ano ref

/-- What the second half of a measurement does, for a list of times. -/
theorem evaluate_full {e : Ext K} {m : Meas K} {cache c' : AvgCache K} {ret : Dict String (Val K)}
    (h : evaluate e m cache = .ok (ret, c')) :
    ∃ trefIn fOut ts, referenceTimes e m cache = .ok (trefIn, fOut, c') ∧
      ts = trefIn.filter (fun x => decide (x ≤ m.tmax ∧ m.tmin ≤ x)) ∧ ts ≠ [] ∧
      (m.o.domain = .frequency → fOut.length = ts.length) ∧ (∀ x ∈ ts, Fine e m x) ∧ Accepted e m ts ∧
      makeReturn m.o.domain m.o.refIn.isScalar (ts.map (eccAt e m)) (ts.map (anoAt e m)) (m.o.domain.pick ts fOut) = .ok ret := by
  obtain ⟨trefIn, fOut, ts, ecc, ano, hr, hts, hne, hlen, he, ha, -, hret⟩ := evaluate_ok h
  obtain ⟨h1, h2, hfine⟩ := both_ok he ha
  refine ⟨trefIn, fOut, ts, hr, hts, hne, hlen, hfine, ?_, by rw [← h1, ← h2]; exact hret⟩
  unfold evaluate at h
  rw [hr] at h
  simp only [ok_bind, ← hts] at h
  split at h
  · cases h
  split at h
  · obtain ⟨_, _, h⟩ := bind_ok h; cases h
  obtain ⟨_, _, h⟩ := bind_ok h
  obtain ⟨_, _, h⟩ := bind_ok h
  obtain ⟨_, _, h⟩ := bind_ok h
  obtain ⟨_, _, h⟩ := bind_ok h
  split at h
  · cases h
  rw [he, ha] at h
  simp only [ok_bind] at h
  obtain ⟨o1, k1, h⟩ := bind_ok h
  obtain ⟨o2, k2, h⟩ := bind_ok h
  exact ⟨⟨o1, k1⟩, o2, by rw [← h1]; exact k2⟩

theorem evaluate_of {e : Ext K} {o : Obj K} {p a : List ℕ} {m : Meas K} (hm : prepare e o p a = .ok m) {r : Val K}
    {ts : List K} (hts : ts = r.atleast1d.filter (fun x => decide (x ≤ m.tmax ∧ m.tmin ≤ x))) (hne : ts ≠ [])
    (hfine : ∀ x ∈ ts, Fine e m x) (hacc : Accepted e m ts) {ret : Dict String (Val K)}
    (hret : makeReturn .time r.isScalar (ts.map (eccAt e m)) (ts.map (anoAt e m)) ts = .ok ret) :
    evaluate e (turnM m .time r) none = .ok (ret, none) := by
  obtain ⟨h1, h2⟩ := both_of hfine
  obtain ⟨⟨o1, k1⟩, o2, k2⟩ := hacc
  unfold evaluate
  rw [show referenceTimes e (turnM m .time r) none = .ok (r.atleast1d, [], none) from rfl]
  simp only [ok_bind]
  rw [show (turnM m .time r).tmax = m.tmax from rfl, show (turnM m .time r).tmin = m.tmin from rfl, ← hts]
  rw [if_neg (by rintro ⟨h, -⟩; cases h), if_neg (by simpa using hne)]
  obtain ⟨-, -, -, -, -, -, -, ⟨p0, p1, a0, a1, q1, q2, -, -, q5, q6⟩, -⟩ := prepare_ok hm
  obtain ⟨x0, hx0, hm0⟩ : ∃ x0, pyGet ts 0 = .ok x0 ∧ x0 ∈ ts := by
    obtain ⟨x0, xs, rfl⟩ := List.exists_cons_of_ne_nil hne
    exact ⟨x0, rfl, by simp⟩
  obtain ⟨x1, hx1, hm1⟩ : ∃ x1, pyLast ts = .ok x1 ∧ x1 ∈ ts := by
    refine ⟨ts.getLast hne, ?_, List.getLast_mem hne⟩
    unfold pyLast
    rw [List.getLast?_eq_some_getLast hne]
  have hp0 : pyGet (turnM m .time r).tPeri 0 = .ok p0 := by
    unfold pyGet
    rw [← List.head?_eq_getElem?, show (turnM m .time r).tPeri = m.tPeri from rfl, q1]
  have hp1 : pyLast (turnM m .time r).tPeri = .ok p1 := by
    unfold pyLast
    rw [show (turnM m .time r).tPeri = m.tPeri from rfl, q2]
  rw [hx0, hx1, hp0, hp1]
  simp only [ok_bind]
  rw [if_neg, ecc_turn, ano_turn, mono_turn, h1, h2, k1]
  · simp only [ok_bind]
    rw [show (turnM m .time r).o.level = m.o.level from rfl, k2]
    simp only [ok_bind]
    rw [show (turnM m .time r).o.domain = .time from rfl, show (turnM m .time r).o.refIn = r from rfl,
      show Domain.time.pick ts ([] : List K) = ts from rfl, hret]
    rfl
  · have g0 := (hfine x0 hm0).1.1
    have g1 := (hfine x1 hm1).1.2
    rw [q5] at g0
    rw [q6] at g1
    push Not
    exact ⟨le_trans (le_max_left _ _) g0, le_trans g1 (min_le_left _ _)⟩

/-- The time of a frequency, as a function. -/
def timeAt (e : Ext K) (m : Meas K) (f : K) : K :=
  match omegaAverage e m (some m.o.avgMethod) with
  | .ok (ts, w) =>
    match getInterpolant (w.map (· / (2 * e.pi))) false .spline m.o.generalKw true with
    | .ok r => val (e.eval r.1 (w.map (· / (2 * e.pi))) ts f)
    | .error _ => 0
  | .error _ => 0

theorem interpolate_val {tol : K} {eval : InterpCall → List K → List K → K → Py K} {newX oldX oldY out : List K}
    {ip : Interpolator} {kw : SplineKwargs} {given : Bool}
    (h : interpolate tol eval newX oldX oldY false ip kw given = .ok out) :
    ∃ r, getInterpolant oldX false ip kw given = .ok r ∧ newX.mapM (eval r.1 oldX oldY) = .ok out := by
  unfold interpolate at h
  split at h
  · cases h
  simp only [Bool.false_eq_true, if_false] at h
  obtain ⟨_, _, h⟩ := bind_ok h
  obtain ⟨_, _, h⟩ := bind_ok h
  obtain ⟨_, _, h⟩ := bind_ok h
  obtain ⟨_, _, h⟩ := bind_ok h
  split at h
  · cases h
  obtain ⟨r, hr, h⟩ := bind_ok h
  exact ⟨r, hr, h⟩

theorem trefs_val {e : Ext K} {m : Meas K} {d : Domain} {r : Val K} {c c' : AvgCache K} {l tref fOut : List K}
    (h : trefFromFref e (turnM m d r) c l = .ok ((tref, fOut), c')) : tref = fOut.map (timeAt e m) := by
  obtain ⟨-, _, ts, w, -, hw, -, -, hi⟩ := trefFromFref_ok h
  obtain ⟨q, hq, hm⟩ := interpolate_val hi
  rw [avg_turn] at hw
  have hw' : omegaAverage e m (some m.o.avgMethod) = .ok (ts, w) := hw
  have hq' : getInterpolant (w.map (· / (2 * e.pi))) false .spline m.o.generalKw true = .ok q := hq
  rw [mapM_val hm]
  refine List.map_congr_left fun x _ => ?_
  unfold timeAt
  rw [hw']
  dsimp only
  rw [hq']

/-- A successful second half for frequencies: the times of all frequencies kept are in the range. -/
theorem frequencies_full {e : Ext K} {m : Meas K} {r : Val K} {c c' : AvgCache K} {ret : Dict String (Val K)}
    (h : evaluate e (turnM m .frequency r) c = .ok (ret, c')) :
    ∃ fOut, fOut ≠ [] ∧ (∀ x ∈ fOut.map (timeAt e m), Fine e m x) ∧ Accepted e m (fOut.map (timeAt e m)) ∧
      makeReturn .frequency r.isScalar ((fOut.map (timeAt e m)).map (eccAt e m)) ((fOut.map (timeAt e m)).map (anoAt e m)) fOut
        = .ok ret := by
  obtain ⟨tref, fOut, ts, hr, hts, hne, hlen, hfine, hacc, hret⟩ := evaluate_full h
  have ht := trefs_val (referenceTimes_frequency rfl hr)
  have hall : ts = tref := by
    rw [hts]
    refine (List.filter_eq_self (l := tref)).mpr ?_
    have hl : ts.length = tref.length := by rw [← hlen rfl, ht, List.length_map]
    rw [hts] at hl
    exact List.length_filter_eq_length_iff.mp hl
  subst hall
  refine ⟨fOut, ?_, by rw [← ht]; exact hfine, by rw [← ht]; exact hacc, by rw [← ht]; exact hret⟩
  rintro rfl
  rw [ht] at hne
  exact hne rfl

theorem return_ok {d : Domain} {s : Bool} {ecc ano ref : List K} (h1 : ecc.length = ref.length) (h2 : ano.length = ref.length)
    (h3 : s = true → ref.length = 1) : ∃ ret, makeReturn d s ecc ano ref = .ok ret := by
  unfold makeReturn
  cases s with
  | false => exact ⟨_, rfl⟩
  | true =>
    have h3 := h3 rfl
    rw [h3] at h1 h2
    match ecc, ano, ref, h1, h2, h3 with
    | [x], [y], [z], _, _, _ => exact ⟨_, rfl⟩

theorem return_entries {d : Domain} {s : Bool} {ecc ano ref : List K} {ret : Dict String (Val K)}
    (h : makeReturn d s ecc ano ref = .ok ret) (hl : ref.length = ecc.length) :
    ∃ ve va vr, Returns ret d.key ve va vr ∧ ve.isScalar = s ∧ va.isScalar = s ∧ vr.isScalar = s ∧ ve.atleast1d = ecc ∧
      va.atleast1d = ano ∧ vr.atleast1d = ref := by
  obtain ⟨ve, va, vr, rfl, h1, h2, h3, h4, h5, h6⟩ := makeReturn_ok h
  refine ⟨ve, va, vr, ⟨rfl, rfl, ?_⟩, h1, h2, h3, h4, h5, h6 hl⟩
  cases d <;> rfl

end object

section call
variable {K C : Type} [Field K] [LinearOrder K] [FloorRing K]

/-- The same call with other reference points. -/
def ask (a : Call K C) (d : Domain) (r : Val K) : Call K C :=
  match d with
  | .time => askTimes a r
  | .frequency => askFrequencies a r

theorem ask_fields (a : Call K C) (d : Domain) (r : Val K) : (ask a d r).level = a.level ∧ (ask a d r).dataDict = a.dataDict ∧
    (ask a d r).precessing = a.precessing ∧ (ask a d r).extra = a.extra ∧ (ask a d r).method = a.method ∧
    (ask a d r).frame = a.frame ∧ (ask a d r).numOrbits = a.numOrbits := by
  cases d <;> exact ⟨rfl, rfl, rfl, rfl, rfl, rfl, rfl⟩

theorem load_ask (lib : Libs K C) (a : Call K C) (d : Domain) (r : Val K) : loadWave lib (ask a d r) = loadWave lib a := by
  cases d <;> rfl

theorem filter_ask (fuel : ℕ) (lib : Libs K C) (a : Call K C) (d : Domain) (r : Val K) (nd : DataV K C) (an : Analysis K)
    (w : Wave K) : filterStage fuel lib (ask a d r) nd an w = filterStage fuel lib a nd an w := by
  cases d <;> rfl

theorem reference_ask (a : Call K C) (d : Domain) (r : Val K) :
    initReference (ask a d r).trefIn (ask a d r).frefIn (ask a d r).frame =
      if a.frame = "inertial" ∨ a.frame = "coprecessing" then .ok (d, r) else .error .valueError := by
  cases d <;> rfl

theorem dispatch_ask {a : Call K C} {d d' : Domain} {r r' : Val K} {x : MethodClass × Domain × Val K}
    (h : dispatch (ask a d r) = .ok x) : x.2 = (d, r) ∧ dispatch (ask a d' r') = .ok (x.1, d', r') := by
  unfold dispatch at h ⊢
  rw [reference_ask, (ask_fields a d r).2.2.2.2.1] at h
  rw [reference_ask, (ask_fields a d' r').2.2.2.2.1]
  by_cases h1 : availableMethods.has a.method
  · rw [if_pos h1] at h ⊢
    cases hc : availableMethods.getItem a.method with
    | error e => rw [hc] at h; cases h
    | ok c =>
      rw [hc] at h
      simp only [ok_bind] at h ⊢
      by_cases h2 : a.frame = "inertial" ∨ a.frame = "coprecessing"
      · rw [if_pos h2] at h ⊢
        cases h
        exact ⟨rfl, rfl⟩
      · rw [if_neg h2] at h; cases h
  · rw [if_neg h1] at h; cases h

theorem finish_turn {lib : Libs K C} {c : MethodClass} {d d' : Domain} {r r' : Val K} {a : Call K C} {nd : DataV K C}
    {an : Analysis K} {w : Wave K} {filtered : Bool} {extra : Option (Extra K)} {b : Built K C}
    (h : finish lib c d r (ask a d r) nd an w filtered extra = .ok b)
    (hseg : ∀ x, inForce extraDefaults extra "use_only_these_many_orbits" = some x → x.truth = false) :
    finish lib c d' r' (ask a d' r') nd an w filtered extra = .ok { b with obj := turn b.obj d' r' } := by
  obtain ⟨f⟩ := finish_ok h
  have ho : f.orbits = none := by
    have h1 := f.h_orbits
    unfold orbitsOption at h1
    rw [if_neg] at h1
    · exact (Except.ok.inj h1).symm
    · have := f.given "use_only_these_many_orbits"
      rw [getItem_ok f.h_useOnly] at this
      rw [hseg _ this.symm]
      decide
  have hwave : f.wave = w := by
    have h1 := f.h_wave
    rw [ho] at h1
    exact (Except.ok.inj h1).symm
  have hw : selectWave lib.wave.pi (secularTrend lib.fits.pow lib.solve) f.orbits d' r'.atleast1d w = .ok f.wave := by
    rw [ho, hwave]; rfl
  have e1 := (ask_fields a d r)
  have e2 := (ask_fields a d' r')
  have h1 := f.h_w1
  have h2 := f.h_special
  have h3 := f.h_w2
  have h4 := f.h_res
  have h5 := f.h_find
  rw [e1.1] at h1 h2 h3
  rw [e1.2.1] at h3
  rw [e1.2.2.1] at h4
  unfold finish
  rw [e2.1, e2.2.1, e2.2.2.1, f.h_ex]
  simp only [ok_bind]
  rw [f.h_useOnly]
  simp only [ok_bind]
  rw [f.h_orbits]
  simp only [ok_bind]
  rw [h1, hw, f.h_peaks, f.h_method]
  simp only [ok_bind]
  rw [h2, f.h_general]
  simp only [ok_bind]
  rw [f.h_spline, h3]
  simp only [ok_bind]
  rw [h4]
  simp only [ok_bind]
  unfold seriesOf at h5
  rw [h5, f.h_avg, f.h_mid, f.h_zero, f.h_dataT]
  simp only [ok_bind]
  have h6 := f.eq
  rw [e1.1, e1.2.2.1] at h6
  exact congrArg Except.ok (congrArg (fun z : Built K C => ({ z with obj := turn z.obj d' r' } : Built K C)) h6).symm

/-- From one call that returns to any other with the same arguments but the reference points. -/
theorem other_run {fuel : ℕ} {lib : Libs K C} {a : Call K C} {d : Domain} {r : Val K} {ans : Answer K C}
    (hrun : run fuel lib (ask a d r) = some (.ok ans)) (hseg : WholeWaveform a) (d' : Domain) (r' : Val K) :
    (∃ x, measureEcc ans.built.ext (turn ans.built.obj d r) none = .ok x) ∧
    run fuel lib (ask a d' r') = some (do
      let (ret, m, _) ← measureEcc ans.built.ext (turn ans.built.obj d' r') none
      pure ⟨ret, { ans.built with obj := turn ans.built.obj d' r' }, m⟩) := by
  obtain ⟨R⟩ := run_ok hrun
  obtain ⟨hx, hd⟩ := dispatch_ask (d' := d') (r' := r') R.h_dispatch
  obtain ⟨h1, h2⟩ := Prod.mk.inj hx
  have hseg' : ∀ x, inForce extraDefaults R.extra "use_only_these_many_orbits" = some x → x.truth = false := by
    intro x hx
    rw [R.inForce _ (by decide), (ask_fields a d r).2.2.2.1] at hx
    exact hseg x hx
  have hf := R.h_finish
  rw [h1, h2] at hf
  have hturn : turn ans.built.obj d r = ans.built.obj := by
    obtain ⟨f⟩ := finish_ok hf
    rw [f.eq]; rfl
  refine ⟨⟨_, by rw [hturn]; exact R.h_measure⟩, ?_⟩
  unfold run
  rw [hd]
  dsimp only
  unfold construct
  rw [load_ask, ← load_ask lib a d r, R.h_load]
  dsimp only
  rw [filter_ask, ← filter_ask fuel lib a d r, R.h_filter]
  simp only [Option.map_some, ok_bind]
  rw [finish_turn hf hseg']
  rfl

/-- All successful calls that differ in the reference points only come from one measurement. -/
theorem answers {fuel : ℕ} {lib : Libs K C} {a : Call K C} {d : Domain} {r : Val K} {ans : Answer K C}
    (hrun : run fuel lib (ask a d r) = some (.ok ans)) (hseg : WholeWaveform a) (d' : Domain) (r' : Val K)
    (ret : Dict String (Val K)) :
    (∃ ans', run fuel lib (ask a d' r') = some (.ok ans') ∧ ans'.ret = ret) ↔
      ∃ mo c, measureEcc ans.built.ext (turn ans.built.obj d' r') none = .ok (ret, mo, c) := by
  rw [(other_run hrun hseg d' r').2]
  constructor
  · rintro ⟨ans', h, rfl⟩
    simp only [Option.some.injEq] at h
    obtain ⟨⟨ret, mo, c⟩, h1, h⟩ := bind_ok h
    exact ⟨mo, c, by rw [h1, ← Except.ok.inj h]⟩
  · rintro ⟨mo, c, h⟩
    rw [h]
    exact ⟨_, rfl, rfl⟩

theorem zero_entries {o : Obj K} {d : Domain} {r : Val K} {ret : Dict String (Val K)} (h : setToZero (turn o d r) = .ok ret) :
    ∃ ve va vr, Returns ret d.key ve va vr ∧ ve.isScalar = r.isScalar ∧ va.isScalar = r.isScalar ∧ vr.isScalar = r.isScalar ∧
      ve.atleast1d = r.atleast1d.map (fun _ => 0) ∧ va.atleast1d = r.atleast1d.map (fun _ => 0) ∧
      vr.atleast1d = r.atleast1d := by
  unfold setToZero at h
  obtain ⟨ve, va, vr, h1, h2, h3, h4, h5, h6, h7⟩ := return_entries h (by simp)
  exact ⟨ve, va, vr, h1, h2, h3, h4, by rw [h5]; simp [turn], by rw [h6]; simp [turn], h7⟩

theorem zero_ok (o : Obj K) (d : Domain) (r : Val K) : ∃ ret, setToZero (turn o d r) = .ok ret := by
  unfold setToZero
  refine return_ok (by simp) (by simp) fun h => ?_
  match r with
  | .scalar _ => rfl
  | .array l => cases h

/-- All successful calls that differ in the reference points only come from one measurement: all of them return zeros, or
all of them evaluate the same curves. -/
inductive Source (fuel : ℕ) (lib : Libs K C) (a : Call K C) : Prop
  | zero (o : Obj K) (h : ∀ d r ret, (∃ ans, run fuel lib (ask a d r) = some (.ok ans) ∧ ans.ret = ret) ↔
      setToZero (turn o d r) = .ok ret)
  | meas (e : Ext K) (o : Obj K) (p q : List ℕ) (m : Meas K) (hm : prepare e o p q = .ok m) (hl : o.level = a.level)
      (h : ∀ d r ret, (∃ ans, run fuel lib (ask a d r) = some (.ok ans) ∧ ans.ret = ret) ↔
        ∃ c, evaluate e (turnM m d r) none = .ok (ret, c))

theorem source {fuel : ℕ} {lib : Libs K C} {a : Call K C} {d : Domain} {r : Val K} {ans : Answer K C}
    (hrun : run fuel lib (ask a d r) = some (.ok ans)) (hseg : WholeWaveform a) : Source fuel lib a := by
  obtain ⟨⟨x, hx⟩, -⟩ := other_run hrun hseg d r
  rcases stage hx with hz | ⟨m, p, q, hm, hev⟩
  · refine .zero ans.built.obj fun d' r' ret => ?_
    rw [answers hrun hseg, hz]
    constructor
    · rintro ⟨mo, c, h⟩
      cases hs : setToZero (turn ans.built.obj d' r') with
      | error e => rw [hs] at h; cases h
      | ok x => rw [hs] at h; cases h; rfl
    · intro h
      rw [h]
      exact ⟨_, _, rfl⟩
  · refine .meas ans.built.ext ans.built.obj p q m hm ?_ fun d' r' ret => ?_
    · obtain ⟨R⟩ := run_ok hrun
      obtain ⟨f⟩ := finish_ok R.h_finish
      rw [f.eq]
      exact (ask_fields a d r).1
    rw [answers hrun hseg, hev]
    constructor
    · rintro ⟨mo, c, h⟩
      cases hs : evaluate ans.built.ext (turnM m d' r') none with
      | error e => rw [hs] at h; cases h
      | ok x => rw [hs] at h; cases h; exact ⟨_, rfl⟩
    · rintro ⟨c, h⟩
      rw [h]
      exact ⟨_, _, rfl⟩

theorem accepted_sub {e : Ext K} {m : Meas K} {ts ts' : List K} (h : Accepted e m ts) (hs : ∀ x ∈ ts', x ∈ ts) :
    Accepted e m ts' := by
  refine ⟨h.1, ?_⟩
  obtain ⟨o, ho⟩ := h.2
  by_cases hc : (ts'.map (eccAt e m)).any (fun x => decide (x < 0)) = true
  · rw [if_pos] at ho
    · rw [if_pos hc]; exact ⟨o, ho⟩
    · rw [List.any_eq_true] at hc ⊢
      obtain ⟨x, hx, hx'⟩ := hc
      obtain ⟨y, hy, rfl⟩ := List.mem_map.mp hx
      exact ⟨_, List.mem_map.mpr ⟨y, hs y hy, rfl⟩, hx'⟩
  · rw [if_neg hc]; exact ⟨_, rfl⟩

theorem accepted_append {e : Ext K} {m : Meas K} {ts ts' : List K} (h : Accepted e m ts) (h' : Accepted e m ts') :
    Accepted e m (ts ++ ts') := by
  refine ⟨h.1, ?_⟩
  obtain ⟨o, ho⟩ := h.2
  obtain ⟨o', ho'⟩ := h'.2
  rw [List.map_append, List.any_append]
  by_cases hc : (ts.map (eccAt e m)).any (fun x => decide (x < 0)) = true
  · rw [if_pos hc] at ho
    rw [hc, Bool.true_or, if_pos rfl]
    exact ⟨o, ho⟩
  · rw [Bool.not_eq_true] at hc
    rw [hc, Bool.false_or]
    exact ⟨o', ho'⟩

theorem val_ext {x y : Val K} (h1 : x.isScalar = y.isScalar) (h2 : x.atleast1d = y.atleast1d) : x = y := by
  cases x <;> cases y <;> cases h1 <;> cases h2 <;> rfl

theorem returns_unique {ret : Dict String (Val K)} {key : String} {a b c a' b' c' : Val K} (h : Returns ret key a b c)
    (h' : Returns ret key a' b' c') : a = a' ∧ b = b' ∧ c = c' := by
  obtain ⟨h1, h2, h3⟩ := h
  obtain ⟨k1, k2, k3⟩ := h'
  rw [h1] at k1; rw [h2] at k2; rw [h3] at k3
  exact ⟨Option.some.inj k1, Option.some.inj k2, Option.some.inj k3⟩

theorem filter_scalar {w : Val K} {p : K → Bool} (h : w.atleast1d.filter p ≠ []) :
    w.isScalar = true → (w.atleast1d.filter p).length = 1 := by
  intro hs
  match w with
  | .scalar x =>
    have h1 : ([x].filter p).length ≤ 1 := (List.length_filter_le _ _)
    have h2 : ([x].filter p).length ≠ 0 := fun hc => h (List.length_eq_zero_iff.mp hc)
    show ([x].filter p).length = 1
    omega
  | .array l => cases hs

end call

end Points

end GwEcc
