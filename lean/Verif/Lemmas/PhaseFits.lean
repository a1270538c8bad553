import Verif.Lemmas.PhaseMeasure
import Verif.Lemmas.UnitsFits
import Verif.Lemmas.SampleCount

/-!
# The search by fits does not depend on the origin of the phase
-/

set_option linter.unusedSectionVars false

namespace GwEcc

namespace Turned

namespace Fit

variable {K : Type} [Field K] [LinearOrder K] [IsStrictOrderedRing K] [FloorRing K]

def shiftData (c : K) (d : FitsData K) : FitsData K := { d with phase := shift c d.phase }

def shiftInfo (c : K) (x : K × K × K) : K × K × K := (x.1, x.2.1, x.2.2 + c)

def shiftNear (c : K) (x : Near K) : Near K := { x with info := x.info.map (shiftInfo c) }

def shiftFind (c : K) (s : FindState K) : FindState K :=
  { s with info := s.info.map (shiftInfo c), extraInfo := s.extraInfo.map (shiftInfo c) }

def shiftFound (c : K) (x : Found K) : Found K := { x with info := x.info.map (shiftInfo c) }

/-- The fit of the phase follows the phase. -/
def CubicShift (lib : FitsLib K) : Prop :=
  ∀ ts ps c x, lib.cubic ts (shift c ps) x = (lib.cubic ts ps x).map (· + c)

variable {lib : FitsLib K} (hl : CubicShift lib) (c : K)

theorem argmaxTrue_shift {P Q : K → Bool} (h : ∀ x, Q (x + c) = P x) (l : List K) :
    argmaxTrue Q (shift c l) = argmaxTrue P l := by
  cases l with
  | nil => rfl
  | cons a l =>
    have := npWhere_map_of (s := (· + c)) h (a :: l)
    show Except.ok ((npWhere Q ((a :: l).map (· + c))).headD 0) = _
    rw [this]
    rfl

theorem gt_shift (a b x : K) : decide (x + c > a + c + b) = decide (x > a + b) := by
  rw [decide_eq_decide]
  constructor <;> intro h <;> linarith

theorem gt_shift' (a b x : K) : decide (x + c > a + c - b) = decide (x > a - b) := by
  rw [decide_eq_decide]
  constructor <;> intro h <;> linarith

theorem get_shift (l : List K) (i : ℕ) : PyRel (fun a b => b = a + c) (pyGet l i) (pyGet (shift c l) i) :=
  PyRel.pyGet (s := (· + c)) l i

theorem distanceProminence_shift (cfg : FitsCfg K) (d : FitsData K) (t0 : K) (p : Trend K) (lo hi : ℕ) :
    distanceProminence lib cfg (shiftData c d) t0 p lo hi = distanceProminence lib cfg d t0 p lo hi := by
  unfold distanceProminence
  refine eq_of_rel ?_
  refine PyRel.bind (PyRel.refl (R := Eq) (fun _ => rfl) _) fun m _ h => ?_
  subst h
  refine PyRel.bind (PyRel.refl (R := Eq) (fun _ => rfl) _) fun t1 _ h => ?_
  subst h
  refine PyRel.bind (PyRel.refl (R := Eq) (fun _ => rfl) _) fun ta _ h => ?_
  subst h
  refine PyRel.bind (get_shift c d.phase (hi - 1)) fun p1 _ h => ?_
  subst h
  refine PyRel.bind (get_shift c d.phase lo) fun pa _ h => ?_
  subst h
  have : p1 + c - (pa + c) = p1 - pa := by ring
  rw [this]
  exact PyRel.refl (R := fun a b => b = a) (fun _ => rfl) _

include hl

theorem refineOne_shift (d : FitsData K) (t0 : K) (p : Trend K) (x : K × K × K) :
    PyRel (fun x y => y = shiftInfo c x) (refineOne lib d t0 p x)
      (refineOne lib (shiftData c d) t0 p (shiftInfo c x)) := by
  unfold refineOne
  have hget : ∀ (l : List K) (sel : List ℕ), sel.filterMap ((shift c l)[·]?) = shift c (sel.filterMap (l[·]?)) := by
    intro l sel
    unfold shift
    rw [List.map_filterMap]
    congr 1
    funext i
    rw [List.getElem?_map]
  dsimp only
  refine PyRel.ite Iff.rfl (fun _ _ => ?_) fun _ _ => .ok rfl
  refine PyRel.bind (PyRel.refl (R := Eq) (fun _ => rfl) _) fun f _ h => ?_
  subst h
  refine PyRel.bind (PyRel.refl (R := Eq) (fun _ => rfl) _) fun r _ h => ?_
  subst h
  refine PyRel.bind (PyRel.refl (R := Eq) (fun _ => rfl) _) fun q _ h => ?_
  subst h
  obtain ⟨tM, v⟩ := q
  dsimp only
  refine PyRel.bind (PyRel.refl (R := Eq) (fun _ => rfl) _) fun g _ h => ?_
  subst h
  refine PyRel.bind (PyRel.refl (R := Eq) (fun _ => rfl) _) fun g0 _ h => ?_
  subst h
  simp only [shiftData, hget]
  refine PyRel.bind (PyRel.of_map (hl _ _ c tM)) fun ph _ h => ?_
  subst h
  exact .ok rfl

theorem extremaInfo_shift (cfg : FitsCfg K) (d : FitsData K) (t0 : K) (p : Trend K) (idx : List ℕ) :
    PyRel (fun x y => y = x.map (shiftInfo c)) (extremaInfo lib cfg d t0 p idx)
      (extremaInfo lib cfg (shiftData c d) t0 p idx) := by
  unfold extremaInfo
  refine PyRel.bind (R := fun x y => y = x.map (shiftInfo c)) ?_ fun info info' hi => ?_
  · have := PyRel.mapM (s := id) (g := shiftInfo c) (f := fun i => do
        let a ← pyGet d.t i
        let b ← pyGet d.data i
        let c ← pyGet d.phase i
        pure (a, b, c)) (f' := fun i => do
        let a ← pyGet (shiftData c d).t i
        let b ← pyGet (shiftData c d).data i
        let c ← pyGet (shiftData c d).phase i
        pure (a, b, c)) idx fun i _ => by
      refine PyRel.bind (PyRel.refl (R := Eq) (fun _ => rfl) _) fun a a' ha => ?_
      refine PyRel.bind (PyRel.refl (R := Eq) (fun _ => rfl) _) fun b b' hb => ?_
      refine PyRel.bind (get_shift c d.phase i) fun x _ hc => ?_
      subst ha hb hc
      exact .ok rfl
    rwa [List.map_id] at this
  · subst hi
    refine PyRel.ite Iff.rfl (fun h _ => ?_) fun _ _ => .ok rfl
    exact PyRel.mapM info fun x _ => refineOne_shift hl c d t0 p x

omit hl

theorem adjust_shift (d : FitsData K) (idx : List ℕ) (nB nA nL nR : ℕ) (adv : K) (s : NearState K) :
    adjust lib (shiftData c d) idx nB nA nL nR adv s = adjust lib d idx nB nA nL nR adv s := by
  have h1 : adjustLo lib (shiftData c d) idx nB nL nR adv s.lo s.ref = adjustLo lib d idx nB nL nR adv s.lo s.ref := by
    unfold adjustLo
    split
    · rfl
    · split
      · split
        · rfl
        · refine eq_of_rel ?_
          refine PyRel.bind (get_shift c d.phase s.lo) fun ph _ h => ?_
          subst h
          have := argmaxTrue_shift c (P := fun x => decide (x > ph - adv * 4 * lib.pi * (6 / 10)))
            (Q := fun x => decide (x > ph + c - adv * 4 * lib.pi * (6 / 10))) (fun x => gt_shift' c _ _ x) d.phase
          show PyRel _ _ (argmaxTrue (fun x => decide (x > ph + c - adv * 4 * lib.pi * (6 / 10))) (shift c d.phase) >>= _)
          rw [this]
          exact PyRel.refl (R := fun a b => b = a) (fun _ => rfl) _
      · rfl
  have h2 : ∀ nR', adjustHi lib (shiftData c d) idx nA nR' adv s.hi = adjustHi lib d idx nA nR' adv s.hi := by
    intro nR'
    have hlen : (shiftData c d).phase.length = d.phase.length := shift_length _ _
    unfold adjustHi
    rw [hlen]
    split
    · rfl
    · split
      · split
        · refine eq_of_rel ?_
          refine PyRel.bind (get_shift c d.phase s.hi) fun ph _ h => ?_
          subst h
          have := argmaxTrue_shift c (P := fun x => decide (x > ph + adv * 4 * lib.pi * (6 / 10)))
            (Q := fun x => decide (x > ph + c + adv * 4 * lib.pi * (6 / 10))) (fun x => gt_shift c _ _ x) d.phase
          show PyRel _ _ (argmaxTrue (fun x => decide (x > ph + c + adv * 4 * lib.pi * (6 / 10))) (shift c d.phase) >>= _)
          rw [this]
          exact PyRel.refl (R := fun a b => b = a) (fun _ => rfl) _
        · rfl
      · rfl
  unfold adjust
  rw [h1]
  simp only [h2]

theorem advance_shift (idx : List ℕ) (raw : List K) (hlen : raw.length = idx.length) (q : K) (old : K) :
    (if 2 ≤ idx.length then ((shift c raw).getLastD 0 - (shift c raw).headD 0) / q else old)
      = if 2 ≤ idx.length then (raw.getLastD 0 - raw.headD 0) / q else old := by
  split
  · rename_i h
    cases raw with
    | nil => simp only [List.length_nil] at hlen; omega
    | cons a l =>
      have e : (shift c (a :: l)).getLastD 0 = (a :: l).getLastD 0 + c := by
        unfold shift
        rw [List.getLastD_eq_getLast?, List.getLastD_eq_getLast?, List.getLast?_map,
          List.getLast?_eq_some_getLast (List.cons_ne_nil a l)]
        rfl
      rw [e]
      show (_ + c - (a + c)) / q = (_ - a) / q
      congr 1
      ring
  · rfl

include hl

theorem nearBody_shift (cfg : FitsCfg K) (d : FitsData K) (t0 sign tol : K)
    (bounds : Trend K × Trend K) (nB nA : ℕ) (distance : ℤ) (prominence : K) (s : NearState K) :
    PyRel (fun x y => y = Sum.map id (shiftNear c) x)
      (nearBody lib cfg d t0 sign tol bounds nB nA distance prominence s)
      (nearBody lib cfg (shiftData c d) t0 sign tol bounds nB nA distance prominence s) := by
  unfold nearBody
  refine PyRel.bind (PyRel.refl (R := Eq) (fun _ => rfl) _) fun x _ h => ?_
  subst h
  refine PyRel.bind (PyRel.refl (R := Eq) (fun _ => rfl) _) fun _ _ _ => ?_
  refine PyRel.bind (PyRel.refl (R := Eq) (fun _ => rfl) _) fun peaks _ hp => ?_
  subst hp
  dsimp only
  have hraw := PyRel.mapM (s := id) (g := (· + c)) (f := fun i => pyGet d.phase i)
    (f' := fun i => pyGet (shiftData c d).phase i) (peaks.map (· + s.lo)) fun i _ => get_shift c d.phase i
  rw [List.map_id] at hraw
  have hrl : PyRel (fun r r' => r' = shift c r ∧ r.length = (peaks.map (· + s.lo)).length)
      ((peaks.map (· + s.lo)).mapM fun i => pyGet d.phase i)
      ((peaks.map (· + s.lo)).mapM fun i => pyGet (shiftData c d).phase i) := by
    generalize hx : ((peaks.map (· + s.lo)).mapM fun i => pyGet d.phase i) = X at hraw
    generalize ((peaks.map (· + s.lo)).mapM fun i => pyGet (shiftData c d).phase i) = Y at hraw
    cases hraw with
    | ok h => exact .ok ⟨h, mapM_len hx⟩
    | error e => exact .error e
  refine PyRel.bind hrl fun raw _ hraw => ?_
  obtain ⟨rfl, hlen⟩ := hraw
  rw [advance_shift c _ raw hlen]
  refine PyRel.bind (extremaInfo_shift hl c cfg d t0 s.p _) fun info info' hi => ?_
  subst hi
  refine PyRel.ite Iff.rfl (fun _ _ => .ok rfl) fun _ _ => ?_
  rw [adjust_shift]
  refine PyRel.bind (PyRel.refl (R := Eq) (fun _ => rfl) _) fun q _ hq => ?_
  subst hq
  obtain ⟨s', nR', again⟩ := q
  dsimp only
  refine PyRel.ite Iff.rfl (fun _ _ => .ok rfl) fun _ _ => ?_
  have hdat : (info.map (shiftInfo c)).map (fun x => x.2.1) = info.map fun x => x.2.1 := by
    rw [List.map_map]
    rfl
  have htim : (info.map (shiftInfo c)).map Prod.fst = info.map Prod.fst := by
    rw [List.map_map]
    rfl
  rw [hdat, htim]
  refine PyRel.ite Iff.rfl (fun _ _ => .ok rfl) fun _ _ => ?_
  refine PyRel.bind (PyRel.refl (R := Eq) (fun _ => rfl) _) fun p _ hp => ?_
  subst hp
  exact .ok rfl

theorem findNear_shift (fuel : ℕ) (cfg : FitsCfg K) (d : FitsData K)
    (t0 sign tol : K) (bounds : Trend K × Trend K) (nB nA ref : ℕ) (adv : K) (p : Trend K) :
    findNear fuel lib cfg (shiftData c d) t0 sign tol bounds nB nA ref adv p
      = (findNear fuel lib cfg d t0 sign tol bounds nB nA ref adv p).map (Except.map (shiftNear c)) := by
  unfold findNear
  have hlen : (shiftData c d).phase.length = d.phase.length := shift_length _ _
  have hstart : (do
        let ph ← pyGet (shiftData c d).phase ref
        let width := 42 / 10 * lib.pi * adv
        let lo ← argmaxTrue (fun x => decide (x > ph - width * nB)) (shiftData c d).phase
        let h ← argmaxTrue (fun x => decide (x > ph + width * nA)) (shiftData c d).phase
        let hi := if h = 0 then (shiftData c d).phase.length else h
        let (distance, prominence) ← distanceProminence lib cfg (shiftData c d) t0 p lo hi
        pure ((⟨0, lo, hi, ref, adv, p, List.replicate (nB + nA) 0, none, 0, none⟩, distance, prominence) :
          NearState K × ℤ × K) : Py (NearState K × ℤ × K)) = (do
        let ph ← pyGet d.phase ref
        let width := 42 / 10 * lib.pi * adv
        let lo ← argmaxTrue (fun x => decide (x > ph - width * nB)) d.phase
        let h ← argmaxTrue (fun x => decide (x > ph + width * nA)) d.phase
        let hi := if h = 0 then d.phase.length else h
        let (distance, prominence) ← distanceProminence lib cfg d t0 p lo hi
        pure ((⟨0, lo, hi, ref, adv, p, List.replicate (nB + nA) 0, none, 0, none⟩, distance, prominence) :
          NearState K × ℤ × K)) := by
    refine eq_of_rel ?_
    refine PyRel.bind (get_shift c d.phase ref) fun ph _ h => ?_
    subst h
    dsimp only
    have e1 : argmaxTrue (fun x => decide (x > ph + c - 42 / 10 * lib.pi * adv * nB)) (shiftData c d).phase
        = argmaxTrue (fun x => decide (x > ph - 42 / 10 * lib.pi * adv * nB)) d.phase :=
      argmaxTrue_shift c (fun x => gt_shift' c _ _ x) d.phase
    have e2 : argmaxTrue (fun x => decide (x > ph + c + 42 / 10 * lib.pi * adv * nA)) (shiftData c d).phase
        = argmaxTrue (fun x => decide (x > ph + 42 / 10 * lib.pi * adv * nA)) d.phase :=
      argmaxTrue_shift c (fun x => gt_shift c _ _ x) d.phase
    rw [e1, e2, hlen]
    simp only [distanceProminence_shift]
    exact PyRel.refl (R := fun a b => b = a) (fun _ => rfl) _
  dsimp only at hstart ⊢
  rw [hstart]
  generalize (do
        let ph ← pyGet d.phase ref
        _ : Py (NearState K × ℤ × K)) = st
  cases st with
  | error e => rfl
  | ok q =>
    obtain ⟨s, distance, prominence⟩ := q
    dsimp only
    refine runLoop_map (g := id) (fun s => ?_) fuel s
    unfold nearStep
    rw [show nearBody lib cfg (shiftData c d) t0 sign tol bounds nB nA distance prominence (id s) = _ from
      (nearBody_shift hl c cfg d t0 sign tol bounds nB nA distance prominence s).to_eq]
    cases nearBody lib cfg d t0 sign tol bounds nB nA distance prominence s with
    | error e => rfl
    | ok x => cases x <;> rfl

omit hl

theorem report_shift (N : ℕ) (x : Near K) (s : FindState K) :
    PyRel (fun q q' => q' = (shiftFind c q.1, q.2)) (report N x s) (report N (shiftNear c x) (shiftFind c s)) := by
  unfold report
  refine PyRel.bind (PyRel.refl (R := Eq) (fun _ => rfl) _) fun tm _ h => ?_
  subst h
  refine PyRel.ite Iff.rfl (fun _ _ => ?_) fun _ _ => ?_
  · refine PyRel.bind (R := fun s s' => s' = shiftFind c s) ?_ fun s1 s1' h1 => ?_
    · refine PyRel.ite Iff.rfl (fun _ _ => ?_) fun _ _ => .ok rfl
      refine PyRel.bind (PyRel.refl (R := Eq) (fun _ => rfl) _) fun f _ h => ?_
      subst h
      have := PyRel.mapM (s := id) (g := shiftInfo c) (f := fun j => pyGet x.info j)
        (f' := fun j => pyGet (x.info.map (shiftInfo c)) j) (List.range N) fun j _ => PyRel.pyGet x.info j
      rw [List.map_id] at this
      refine PyRel.bind this fun fi fi' hfi => ?_
      subst hfi
      refine .ok ?_
      simp [shiftFind]
    subst h1
    refine PyRel.bind (PyRel.refl (R := Eq) (fun _ => rfl) _) fun y _ h => ?_
    subst h
    refine PyRel.bind (R := fun s s' => s' = shiftFind c s) ?_ fun s2 s2' h2 => ?_
    · refine PyRel.ite Iff.rfl (fun _ _ => ?_) fun _ _ => .ok rfl
      refine PyRel.bind (PyRel.pyGet (s := shiftInfo c) x.info N) fun i i' hi => ?_
      subst hi
      refine .ok ?_
      simp [shiftFind, shiftNear, List.map_drop]
    subst h2
    refine PyRel.ite Iff.rfl (fun _ _ => .ok ?_) fun _ _ => .ok rfl
    have hz : ((x.idx.zip (x.info.map (shiftInfo c))).drop (N + 1)).filter (fun q : ℕ × K × K × K => decide (q.1 > x.ref))
        = (((x.idx.zip x.info).drop (N + 1)).filter fun q => decide (q.1 > x.ref)).map (Prod.map id (shiftInfo c)) := by
      rw [List.zip_map_right, ← List.map_drop, List.filter_map]
      rfl
    show ({ shiftFind c s2 with
        extrema := s2.extrema ++ (((x.idx.zip (x.info.map (shiftInfo c))).drop (N + 1)).filter
          (fun q : ℕ × K × K × K => decide (q.1 > x.ref))).map Prod.fst
        info := s2.info.map (shiftInfo c) ++ (((x.idx.zip (x.info.map (shiftInfo c))).drop (N + 1)).filter
          (fun q : ℕ × K × K × K => decide (q.1 > x.ref))).map Prod.snd }, true) = _
    rw [hz, List.map_map, List.map_map]
    simp only [shiftFind, List.map_append, List.map_map]
    rfl
  · refine .ok ?_
    simp [shiftFind]

theorem findBody_shift (limit : ℕ) {near near' : ℕ → K → Trend K → Option (Py (Near K))} (N : ℕ)
    (hn : ∀ ref adv p, near' ref adv p = (near ref adv p).map (Except.map (shiftNear c))) (s : FindState K) :
    findBody limit near' N (shiftFind c s)
      = Sum.map (shiftFind c) (Option.map (Except.map (shiftFound c))) (findBody limit near N s) := by
  unfold findBody
  dsimp only
  rw [show near' (shiftFind c s).ref (shiftFind c s).adv (shiftFind c s).p = _ from hn s.ref s.adv s.p]
  cases near s.ref s.adv s.p with
  | none => rfl
  | some y =>
    cases y with
    | error e => rfl
    | ok x =>
      dsimp only [Option.map_some, Except.map]
      rw [show report N (shiftNear c x) { shiftFind c s with count := (shiftFind c s).count + 1 } = _ from
        (report_shift c N x { s with count := s.count + 1 }).to_eq]
      cases report N x { s with count := s.count + 1 } with
      | error e => rfl
      | ok q =>
        obtain ⟨s', b⟩ := q
        cases b with
        | true => rfl
        | false =>
          dsimp only [Except.map]
          show (match pyGet x.idx N, pyGet x.idx (N + 1) with
            | .ok a, .ok b => _
            | _, _ => _) = _
          cases pyGet x.idx N with
          | error e => rfl
          | ok a =>
            cases pyGet x.idx (N + 1) with
            | error e => rfl
            | ok b =>
              dsimp only
              show (if s'.count > limit then _ else _) = _
              split <;> rfl

theorem globalSetup_shift (cfg : FitsCfg K) (d : FitsData K) :
    globalSetup lib cfg (shiftData c d) = globalSetup lib cfg d := by
  unfold globalSetup
  refine eq_of_rel ?_
  refine PyRel.bind (get_shift c d.phase 0) fun ph0 _ h => ?_
  subst h
  have e1 : argmaxTrue (fun x => decide (x > ph0 + c + cfg.numGlobal * 4 * lib.pi)) (shiftData c d).phase
      = argmaxTrue (fun x => decide (x > ph0 + cfg.numGlobal * 4 * lib.pi)) d.phase :=
    argmaxTrue_shift c (fun x => gt_shift c _ _ x) d.phase
  rw [e1]
  exact PyRel.refl (R := fun a b => b = a) (fun _ => rfl) _

include hl

/-- The search gives the same extrema, and their phases with the other origin. -/
theorem findExtrema_shift (limit fuel : ℕ) (cfg : FitsCfg K) (d : FitsData K) (sign : K) :
    findExtrema limit fuel lib cfg (shiftData c d) sign
      = (findExtrema limit fuel lib cfg d sign).map (Except.map (shiftFound c)) := by
  unfold findExtrema
  rw [globalSetup_shift]
  have hstart : PyRel (fun x y => y = (x.1, x.2.1, shiftFind c x.2.2))
      (do
        let (ts, ds, t0, p0, lo, hi) ← globalSetup lib cfg d
        let p ← fitTrend lib t0 ts ds p0 lo hi
        let adv : K := 11 / 10
        let ph0 ← pyGet d.phase 0
        let ref ← argmaxTrue (fun x => decide (x > ph0 + adv * ((cfg.N : K) - 1) * 4 * lib.pi)) d.phase
        if ref = 0 then .error .exception
        else pure (t0, (lo, hi), ⟨0, ref, adv, p, [], [], [], []⟩) : Py (K × (Trend K × Trend K) × FindState K))
      (do
        let (ts, ds, t0, p0, lo, hi) ← globalSetup lib cfg d
        let p ← fitTrend lib t0 ts ds p0 lo hi
        let adv : K := 11 / 10
        let ph0 ← pyGet (shiftData c d).phase 0
        let ref ← argmaxTrue (fun x => decide (x > ph0 + adv * ((cfg.N : K) - 1) * 4 * lib.pi)) (shiftData c d).phase
        if ref = 0 then .error .exception
        else pure (t0, (lo, hi), ⟨0, ref, adv, p, [], [], [], []⟩) : Py (K × (Trend K × Trend K) × FindState K)) := by
    refine PyRel.bind (PyRel.refl (R := Eq) (fun _ => rfl) _) fun q _ h => ?_
    subst h
    obtain ⟨ts, ds, t0, p0, lo, hi⟩ := q
    dsimp only
    refine PyRel.bind (PyRel.refl (R := Eq) (fun _ => rfl) _) fun p _ h => ?_
    subst h
    refine PyRel.bind (get_shift c d.phase 0) fun ph0 _ h => ?_
    subst h
    have e1 : argmaxTrue (fun x => decide (x > ph0 + c + 11 / 10 * ((cfg.N : K) - 1) * 4 * lib.pi)) (shiftData c d).phase
        = argmaxTrue (fun x => decide (x > ph0 + 11 / 10 * ((cfg.N : K) - 1) * 4 * lib.pi)) d.phase :=
      argmaxTrue_shift c (fun x => gt_shift c _ _ x) d.phase
    rw [e1]
    refine PyRel.bind (PyRel.refl (R := Eq) (fun _ => rfl) _) fun ref _ h => ?_
    subst h
    exact PyRel.ite Iff.rfl (fun _ _ => .error _) fun _ _ => .ok rfl
  dsimp only at hstart ⊢
  rw [hstart.to_eq]
  generalize (globalSetup lib cfg d >>= _ : Py (K × (Trend K × Trend K) × FindState K)) = st
  cases st with
  | error e => rfl
  | ok q =>
    obtain ⟨t0, bounds, s⟩ := q
    dsimp only [Except.map]
    rw [runLoop_map (findBody_shift c limit cfg.N fun ref adv p =>
      findNear_shift hl c fuel cfg d t0 sign (1 / 10 ^ 8) bounds cfg.N (cfg.N + 1) ref adv p) fuel s]
    cases runLoop (findBody limit (findNear fuel lib cfg d t0 sign (1 / 10 ^ 8) bounds cfg.N (cfg.N + 1)) cfg.N) fuel s <;> rfl

end Fit

end Turned

end GwEcc
