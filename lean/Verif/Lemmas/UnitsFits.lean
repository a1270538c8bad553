import Verif.Lemmas.UnitsFilter
import Verif.Lemmas.Fits
import Verif.Spec.Rescale

/-!
# The search by fits in other units
-/

set_option linter.unusedSectionVars false

namespace GwEcc

open Spec

theorem whereFrom_map_of {α β : Type} {s : α → β} {P : α → Bool} {Q : β → Bool} (h : ∀ x, Q (s x) = P x) : ∀ (l : List α) (n : ℕ),
    whereFrom Q n (l.map s) = whereFrom P n l
  | [], _ => rfl
  | a :: l, n => by
    simp only [List.map_cons, whereFrom, h, whereFrom_map_of h l]

theorem npWhere_map_of {α β : Type} {s : α → β} {P : α → Bool} {Q : β → Bool} (h : ∀ x, Q (s x) = P x) (l : List α) :
    npWhere Q (l.map s) = npWhere P l := whereFrom_map_of h l 0

theorem PyRel.to_eq {α β : Type} {x : Py α} {y : Py β} {f : α → β} (h : PyRel (fun a b => b = f a) x y) : y = x.map f := by
  cases h with
  | ok h => exact congrArg Except.ok h
  | error e => rfl

theorem runLoop_map {S S' R R' : Type} {f : S → S ⊕ R} {f' : S' → S' ⊕ R'} {g : S → S'} {h : R → R'}
    (hf : ∀ s, f' (g s) = Sum.map g h (f s)) : ∀ (n : ℕ) (s : S), runLoop f' n (g s) = (runLoop f n s).map h
  | 0, _ => rfl
  | n + 1, s => by
    rw [runLoop_succ, runLoop_succ, hf]
    cases f s with
    | inl s' => exact runLoop_map hf n s'
    | inr r => rfl

namespace UnitsFits

variable {K : Type} [Field K] [LinearOrder K] [IsStrictOrderedRing K] [FloorRing K]

/-- Data in the new units. -/
def newData (k r : K) (d : FitsData K) : FitsData K := ⟨d.t.map (k * ·), d.phase, d.data.map (r * ·)⟩

def newInfo (k r : K) (x : K × K × K) : K × K × K := (k * x.1, r * x.2.1, x.2.2)

def newState (k r : K) (s : NearState K) : NearState K := { s with p := newTrend k r s.p, old := s.old.map (r * ·) }

def newNear (k r : K) (x : Near K) : Near K := { x with p := newTrend k r x.p, info := x.info.map (newInfo k r) }

def newFind (k r : K) (s : FindState K) : FindState K :=
  { s with p := newTrend k r s.p, info := s.info.map (newInfo k r), extraInfo := s.extraInfo.map (newInfo k r) }

def newFound (k r : K) (x : Found K) : Found K := { x with info := x.info.map (newInfo k r) }

variable {k r : K} (hk : 0 < k) (hr : 0 < r)
include hk hr

omit hr in
theorem mono_k : Monotone (k * ·) := fun _ _ h => mul_le_mul_of_nonneg_left h hk.le

theorem diff_scale : ∀ l : List K, diff (l.map (k * ·)) = (diff l).map (k * ·)
  | [] => rfl
  | [_] => rfl
  | a :: b :: l => by
    have ih := diff_scale (b :: l)
    simp only [List.map_cons, diff] at ih ⊢
    rw [ih, mul_sub]

theorem cut_map {α β : Type} (f : α → β) (l : List α) (lo hi : ℕ) : cut (l.map f) lo hi = (cut l lo hi).map f := by
  unfold cut
  rw [← List.map_take, List.map_drop]

variable {lib : FitsLib K} (hl : FitsUnitFree lib k r)
include hl

theorem trendAt_new (t0 : K) (p : Trend K) (t : K) :
    trendAt lib.pow (k * t0) (newTrend k r p) (k * t) = r * trendAt lib.pow t0 p t := by
  unfold trendAt newTrend
  dsimp only
  have e : -(k * p.T - k * t0) * (r / k * p.f1) / (r * p.f0) = -(p.T - t0) * p.f1 / p.f0 := by
    have hk' := hk.ne'
    have hr' := hr.ne'
    by_cases h : p.f0 = 0
    · rw [h]; simp
    · field_simp
  rw [e, ← mul_sub, ← mul_sub, mul_assoc, hl.pow]
  ring

theorem envelope_new (t0 : K) (p : Trend K) (t : List K) :
    PyRel (fun x y => y = x.map (r * ·)) (envelope lib.pow t0 p t)
      (envelope lib.pow (k * t0) (newTrend k r p) (t.map (k * ·))) := by
  unfold envelope
  refine PyRel.bind (npMax_rel (mono_k hk) t) fun m m' hm => ?_
  rw [hm.1]
  refine PyRel.ite ?_ (fun _ _ => .error _) fun _ _ => .ok ?_
  · show p.T < m ↔ k * p.T < k * m
    rw [mul_lt_mul_iff_right₀ hk]
  · rw [List.map_map, List.map_map]
    exact List.map_congr_left fun x _ => trendAt_new hk hr hl t0 p x

theorem residual_new (d : FitsData K) (t0 : K) (p : Trend K) (lo hi : ℕ) :
    PyRel (fun x y => y = x.map (r * ·)) (residual lib d t0 p lo hi)
      (residual lib (newData k r d) (k * t0) (newTrend k r p) lo hi) := by
  unfold residual newData
  dsimp only
  rw [cut_map hk hr, cut_map hk hr]
  refine PyRel.bind (envelope_new hk hr hl t0 p _) fun f f' hf => ?_
  subst hf
  exact npZip_new _ _ (r * ·) (fun x y => by ring) _ _

theorem feasible_new (p lo hi : Trend K) : feasible (newTrend k r p) (newTrend k r lo) (newTrend k r hi) = feasible p lo hi := by
  have h1 : 0 < r / k := div_pos hr hk
  unfold feasible newTrend
  simp only [mul_lt_mul_iff_right₀ hr, mul_lt_mul_iff_right₀ hk, mul_lt_mul_iff_right₀ h1, mul_le_mul_iff_right₀ hr,
    mul_le_mul_iff_right₀ hk, mul_le_mul_iff_right₀ h1]

theorem fitTrend_new (t0 : K) (t d : List K) (p lo hi : Trend K) :
    PyRel (fun x y => y = newTrend k r x) (fitTrend lib t0 t d p lo hi)
      (fitTrend lib (k * t0) (t.map (k * ·)) (d.map (r * ·)) (newTrend k r p) (newTrend k r lo) (newTrend k r hi)) := by
  unfold fitTrend
  rw [feasible_new hk hr hl]
  exact PyRel.ite Iff.rfl (fun _ _ => PyRel.of_map (hl.curveFit _ _ _ _ _ _)) fun _ _ => .error _

theorem distanceProminence_new (cfg : FitsCfg K) (d : FitsData K) (t0 : K) (p : Trend K) (lo hi : ℕ) :
    PyRel (fun x y => y = (x.1, r * x.2)) (distanceProminence lib cfg d t0 p lo hi)
      (distanceProminence lib cfg (newData k r d) (k * t0) (newTrend k r p) lo hi) := by
  unfold distanceProminence
  have hd : diff (cut (newData k r d).t lo hi) = (diff (cut d.t lo hi)).map (k * ·) := by
    show diff (cut (d.t.map (k * ·)) lo hi) = _
    rw [cut_map hk hr, diff_scale hk hr]
  rw [hd]
  refine PyRel.bind (npMax_rel (mono_k hk) _) fun m m' hm => ?_
  obtain ⟨hm, -⟩ := hm
  refine PyRel.bind (PyRel.pyGet (s := (k * ·)) d.t (hi - 1)) fun t1 t1' h1 => ?_
  refine PyRel.bind (PyRel.pyGet (s := (k * ·)) d.t lo) fun ta ta' ha => ?_
  refine PyRel.bind (PyRel.refl (R := Eq) (fun _ => rfl) _) fun p1 _ hp1 => ?_
  refine PyRel.bind (PyRel.refl (R := Eq) (fun _ => rfl) _) fun pa _ hpa => ?_
  subst hp1 hpa hm h1 ha
  have hk' := hk.ne'
  refine PyRel.ite (by simp [hk']) (fun _ _ => .error _) fun hne _ => ?_
  push_neg at hne
  refine PyRel.bind (residual_new hk hr hl d t0 p lo hi) fun x x' hx => ?_
  subst hx
  refine PyRel.bind (npMax_rel (mono_k hr) x) fun M M' hM => ?_
  refine PyRel.bind (npMin_rel (mono_k hr) x) fun n n' hn => ?_
  rw [hM.1, hn.1]
  refine .ok (Prod.ext ?_ ?_)
  · dsimp only
    congr 1
    have h1 := hne.1
    have h2 := hne.2
    field_simp
  · dsimp only
    ring

theorem refineOne_new (hrk : r = k⁻¹) (d : FitsData K) (t0 : K) (p : Trend K) (x : K × K × K) :
    PyRel (fun x y => y = newInfo k r x) (refineOne lib d t0 p x)
      (refineOne lib (newData k r d) (k * t0) (newTrend k r p) (newInfo k r x)) := by
  unfold refineOne
  have hsel : npWhere (fun y => decide (|y - (newInfo k r x).1| < 5 / 100 / (newInfo k r x).2.1)) (newData k r d).t
      = npWhere (fun y => decide (|y - x.1| < 5 / 100 / x.2.1)) d.t := by
    refine npWhere_map_of (fun y => ?_) d.t
    rw [decide_eq_decide]
    show |k * y - k * x.1| < 5 / 100 / (r * x.2.1) ↔ _
    have e : (5 : K) / 100 / (r * x.2.1) = k * (5 / 100 / x.2.1) := by
      rw [hrk, mul_comm k, ← div_div, div_inv_eq_mul]
      ring
    rw [← mul_sub, abs_mul, abs_of_pos hk, e, mul_lt_mul_iff_right₀ hk]
  have hget : ∀ (f : K → K) (l : List K) (sel : List ℕ), sel.filterMap ((l.map f)[·]?) = (sel.filterMap (l[·]?)).map f := by
    intro f l sel
    rw [List.map_filterMap]
    congr 1
    funext i
    rw [List.getElem?_map]
  dsimp only
  rw [hsel]
  refine PyRel.ite Iff.rfl (fun _ _ => ?_) fun _ _ => .ok rfl
  simp only [newData, hget]
  refine PyRel.bind (envelope_new hk hr hl t0 p _) fun f f' hf => ?_
  subst hf
  refine PyRel.bind (npZip_new _ _ (r * ·) (fun x y => by ring) _ _) fun y y' hy => ?_
  subst hy
  refine PyRel.bind (PyRel.of_map (hl.parabola _ _)) fun q q' hq => ?_
  subst hq
  obtain ⟨tM, v⟩ := q
  dsimp only
  refine PyRel.bind (envelope_new hk hr hl t0 p [tM]) fun g g' hg => ?_
  subst hg
  refine PyRel.bind (PyRel.pyGet (s := (r * ·)) g 0) fun g0 g0' hg0 => ?_
  subst hg0
  rw [hl.cubic]
  refine PyRel.bind (PyRel.refl (R := Eq) (fun _ => rfl) _) fun ph _ hph => ?_
  subst hph
  refine .ok ?_
  unfold newInfo
  rw [mul_add]

theorem extremaInfo_new (cfg : FitsCfg K) (hrf : cfg.refine = false ∨ r = k⁻¹) (d : FitsData K) (t0 : K) (p : Trend K)
    (idx : List ℕ) :
    PyRel (fun x y => y = x.map (newInfo k r)) (extremaInfo lib cfg d t0 p idx)
      (extremaInfo lib cfg (newData k r d) (k * t0) (newTrend k r p) idx) := by
  unfold extremaInfo
  have hm : PyRel (fun x y => y = x.map (newInfo k r))
      (idx.mapM fun i => do
        let a ← pyGet d.t i
        let b ← pyGet d.data i
        let c ← pyGet d.phase i
        pure (a, b, c))
      (idx.mapM fun i => do
        let a ← pyGet (newData k r d).t i
        let b ← pyGet (newData k r d).data i
        let c ← pyGet (newData k r d).phase i
        pure (a, b, c)) := by
    have := PyRel.mapM (s := id) (g := newInfo k r) (f := fun i => do
        let a ← pyGet d.t i
        let b ← pyGet d.data i
        let c ← pyGet d.phase i
        pure (a, b, c)) (f' := fun i => do
        let a ← pyGet (newData k r d).t i
        let b ← pyGet (newData k r d).data i
        let c ← pyGet (newData k r d).phase i
        pure (a, b, c)) idx fun i _ => by
      refine PyRel.bind (PyRel.pyGet (s := (k * ·)) d.t i) fun a a' ha => ?_
      refine PyRel.bind (PyRel.pyGet (s := (r * ·)) d.data i) fun b b' hb => ?_
      refine PyRel.bind (PyRel.refl (R := Eq) (fun _ => rfl) _) fun c _ hc => ?_
      subst ha hb hc
      exact .ok rfl
    rwa [List.map_id] at this
  refine PyRel.bind hm fun info info' hi => ?_
  subst hi
  refine PyRel.ite Iff.rfl (fun h _ => ?_) fun _ _ => .ok rfl
  rcases hrf with h' | hrk
  · rw [h'] at h; cases h
  · exact PyRel.mapM info fun x _ => refineOne_new hk hr hl hrk d t0 p x

omit hk hl in
theorem adjust_new (d : FitsData K) (idx : List ℕ) (nB nA nL nR : ℕ) (adv : K) (s : NearState K) :
    adjust lib (newData k r d) idx nB nA nL nR adv (newState k r s)
      = (adjust lib d idx nB nA nL nR adv s).map fun q => (newState k r q.1, q.2) := by
  unfold adjust
  split
  · show (adjustLo lib d idx nB nL nR adv s.lo s.ref >>= _) = _
    cases adjustLo lib d idx nB nL nR adv s.lo s.ref with
    | error e => rfl
    | ok q =>
      obtain ⟨lo, ref, nR'⟩ := q
      show (adjustHi lib d idx nA nR' adv s.hi >>= _) = Except.map _ (adjustHi lib d idx nA nR' adv s.hi >>= _)
      cases adjustHi lib d idx nA nR' adv s.hi with
      | error e => rfl
      | ok hi =>
        simp only [ok_bind]
        show (if s.oldInterval ≠ some (lo, hi) then _ else _) = _
        split <;> rfl
  · rfl

omit hk hl in
theorem delta_new (l l' : List K) : ∀ a : K,
    (List.zipWith (fun a b => |a - b|) (l.map (r * ·)) (l'.map (r * ·))).foldl max (r * a)
      = r * (List.zipWith (fun a b => |a - b|) l l').foldl max a := by
  rw [List.zipWith_map]
  have e : List.zipWith (fun a b => |r * a - r * b|) l l' = (List.zipWith (fun a b => |a - b|) l l').map (r * ·) := by
    rw [List.map_zipWith]
    congr 1
    funext a b
    rw [← mul_sub, abs_mul, abs_of_pos hr]
  rw [e]
  generalize List.zipWith (fun a b => |a - b|) l l' = m
  induction m with
  | nil => intro a; rfl
  | cons x m ih =>
    intro a
    simp only [List.map_cons, List.foldl_cons]
    rw [← mul_max_of_nonneg _ _ hr.le]
    exact ih _

theorem nearBody_new (cfg : FitsCfg K) (hrf : cfg.refine = false ∨ r = k⁻¹) (d : FitsData K) (t0 sign tol : K)
    (bounds : Trend K × Trend K) (nB nA : ℕ) (distance : ℤ) (prominence : K) (s : NearState K) :
    PyRel (fun x y => y = Sum.map (newState k r) (newNear k r) x)
      (nearBody lib cfg d t0 sign tol bounds nB nA distance prominence s)
      (nearBody lib cfg (newData k r d) (k * t0) sign (r * tol) (newTrend k r bounds.1, newTrend k r bounds.2) nB nA distance
        (r * prominence) (newState k r s)) := by
  unfold nearBody
  refine PyRel.bind (residual_new hk hr hl d t0 s.p s.lo s.hi) fun x x' hx => ?_
  subst hx
  refine PyRel.bind (npMax_rel (mono_k hr) x) fun _ _ _ => ?_
  have e : (x.map (r * ·)).map (sign * ·) = (x.map (sign * ·)).map (r * ·) := by
    rw [List.map_map, List.map_map]
    exact List.map_congr_left fun y _ => by simp only [Function.comp]; ring
  rw [e, hl.findPeaks]
  refine PyRel.bind (PyRel.refl (R := Eq) (fun _ => rfl) _) fun peaks _ hp => ?_
  subst hp
  dsimp only
  refine PyRel.bind (PyRel.refl (R := Eq) (fun _ => rfl) _) fun raw _ hraw => ?_
  subst hraw
  refine PyRel.bind (extremaInfo_new hk hr hl cfg hrf d t0 s.p _) fun info info' hi => ?_
  subst hi
  refine PyRel.ite Iff.rfl (fun _ _ => .ok rfl) fun _ _ => ?_
  refine PyRel.bind (PyRel.of_map (adjust_new hr d _ nB nA _ _ _ { s with it := s.it + 1, short := _, adv := _ }))
    fun q q' hq => ?_
  subst hq
  obtain ⟨s', nR', again⟩ := q
  dsimp only
  refine PyRel.ite Iff.rfl (fun _ _ => .ok rfl) fun _ _ => ?_
  have hdat : (info.map (newInfo k r)).map (fun x => x.2.1) = (info.map fun x => x.2.1).map (r * ·) := by
    rw [List.map_map, List.map_map]
    rfl
  have htim : (info.map (newInfo k r)).map Prod.fst = (info.map Prod.fst).map (k * ·) := by
    rw [List.map_map, List.map_map]
    rfl
  rw [hdat, htim]
  have hlen : (newState k r s').old.length = s'.old.length := List.length_map _
  have hdelta : ∀ (P : Prop) [Decidable P], (∃ x, (if P then none
        else some ((List.zipWith (fun a b => |a - b|) ((info.map fun x => x.2.1).map (r * ·)) (newState k r s').old).foldl max 0))
          = some x ∧ x < r * tol) ↔
      ∃ x, (if P then none else some ((List.zipWith (fun a b => |a - b|) (info.map fun x => x.2.1) s'.old).foldl max 0))
        = some x ∧ x < tol := by
    intro P _
    have := delta_new hr (info.map fun x => x.2.1) s'.old 0
    rw [mul_zero] at this
    show (∃ x, (if P then none else some ((List.zipWith (fun a b => |a - b|) ((info.map fun x => x.2.1).map (r * ·))
      (s'.old.map (r * ·))).foldl max 0)) = some x ∧ x < r * tol) ↔ _
    rw [this]
    by_cases h : P
    · simp [h]
    · simp [h, mul_lt_mul_iff_right₀ hr]
  rw [hlen]
  refine PyRel.ite ?_ (fun _ _ => .ok rfl) fun _ _ => ?_
  · rw [hdelta]
    rfl
  · refine PyRel.bind (fitTrend_new hk hr hl t0 _ _ s'.p bounds.1 bounds.2) fun p p' hp => ?_
    subst hp
    exact .ok rfl

theorem findNear_new (fuel : ℕ) (cfg : FitsCfg K) (hrf : cfg.refine = false ∨ r = k⁻¹) (d : FitsData K)
    (t0 sign tol : K) (bounds : Trend K × Trend K) (nB nA ref : ℕ) (adv : K) (p : Trend K) :
    findNear fuel lib cfg (newData k r d) (k * t0) sign (r * tol) (newTrend k r bounds.1, newTrend k r bounds.2) nB nA ref adv
        (newTrend k r p)
      = (findNear fuel lib cfg d t0 sign tol bounds nB nA ref adv p).map (Except.map (newNear k r)) := by
  unfold findNear
  have hstart : PyRel (fun x y => y = (newState k r x.1, x.2.1, r * x.2.2))
      (do
        let ph ← pyGet d.phase ref
        let width := 42 / 10 * lib.pi * adv
        let lo ← argmaxTrue (fun x => decide (x > ph - width * nB)) d.phase
        let h ← argmaxTrue (fun x => decide (x > ph + width * nA)) d.phase
        let hi := if h = 0 then d.phase.length else h
        let (distance, prominence) ← distanceProminence lib cfg d t0 p lo hi
        pure ((⟨0, lo, hi, ref, adv, p, List.replicate (nB + nA) 0, none, 0, none⟩, distance, prominence) :
          NearState K × ℤ × K) : Py (NearState K × ℤ × K))
      (do
        let ph ← pyGet d.phase ref
        let width := 42 / 10 * lib.pi * adv
        let lo ← argmaxTrue (fun x => decide (x > ph - width * nB)) d.phase
        let h ← argmaxTrue (fun x => decide (x > ph + width * nA)) d.phase
        let hi := if h = 0 then d.phase.length else h
        let (distance, prominence) ← distanceProminence lib cfg (newData k r d) (k * t0) (newTrend k r p) lo hi
        pure ((⟨0, lo, hi, ref, adv, newTrend k r p, List.replicate (nB + nA) 0, none, 0, none⟩, distance, prominence) :
          NearState K × ℤ × K)) := by
    refine PyRel.bind (PyRel.refl (R := Eq) (fun _ => rfl) _) fun ph _ h => ?_
    subst h
    refine PyRel.bind (PyRel.refl (R := Eq) (fun _ => rfl) _) fun lo _ h => ?_
    subst h
    refine PyRel.bind (PyRel.refl (R := Eq) (fun _ => rfl) _) fun hi _ h => ?_
    subst h
    refine PyRel.bind (distanceProminence_new hk hr hl cfg d t0 p _ _) fun q q' hq => ?_
    subst hq
    refine .ok ?_
    simp only [newState, List.map_replicate, mul_zero]
  dsimp only at hstart ⊢
  rw [show (newData k r d).phase = d.phase from rfl, hstart.to_eq]
  generalize (do
        let ph ← pyGet d.phase ref
        _ : Py (NearState K × ℤ × K)) = st
  cases st with
  | error e => rfl
  | ok q =>
    obtain ⟨s, distance, prominence⟩ := q
    dsimp only [Except.map]
    refine runLoop_map (fun s => ?_) fuel s
    unfold nearStep
    rw [(nearBody_new hk hr hl cfg hrf d t0 sign tol bounds nB nA distance prominence s).to_eq]
    cases nearBody lib cfg d t0 sign tol bounds nB nA distance prominence s with
    | error e => rfl
    | ok x => cases x <;> rfl

omit hk hr hl in
theorem report_new (N : ℕ) (x : Near K) (s : FindState K) :
    PyRel (fun q q' => q' = (newFind k r q.1, q.2)) (report N x s) (report N (newNear k r x) (newFind k r s)) := by
  unfold report
  refine PyRel.bind (PyRel.refl (R := Eq) (fun _ => rfl) _) fun tm _ h => ?_
  subst h
  refine PyRel.ite Iff.rfl (fun _ _ => ?_) fun _ _ => ?_
  · refine PyRel.bind (R := fun s s' => s' = newFind k r s) ?_ fun s1 s1' h1 => ?_
    · refine PyRel.ite Iff.rfl (fun _ _ => ?_) fun _ _ => .ok rfl
      refine PyRel.bind (PyRel.refl (R := Eq) (fun _ => rfl) _) fun f _ h => ?_
      subst h
      have := PyRel.mapM (s := id) (g := newInfo k r) (f := fun j => pyGet x.info j)
        (f' := fun j => pyGet (x.info.map (newInfo k r)) j) (List.range N) fun j _ => PyRel.pyGet x.info j
      rw [List.map_id] at this
      refine PyRel.bind this fun fi fi' hfi => ?_
      subst hfi
      refine .ok ?_
      simp [newFind]
    subst h1
    refine PyRel.bind (PyRel.refl (R := Eq) (fun _ => rfl) _) fun y _ h => ?_
    subst h
    refine PyRel.bind (R := fun s s' => s' = newFind k r s) ?_ fun s2 s2' h2 => ?_
    · refine PyRel.ite Iff.rfl (fun _ _ => ?_) fun _ _ => .ok rfl
      refine PyRel.bind (PyRel.pyGet (s := newInfo k r) x.info N) fun i i' hi => ?_
      subst hi
      refine .ok ?_
      simp [newFind, newNear, List.map_drop]
    subst h2
    refine PyRel.ite Iff.rfl (fun _ _ => .ok ?_) fun _ _ => .ok rfl
    have hz : ((x.idx.zip (x.info.map (newInfo k r))).drop (N + 1)).filter (fun q : ℕ × K × K × K => decide (q.1 > x.ref))
        = (((x.idx.zip x.info).drop (N + 1)).filter fun q => decide (q.1 > x.ref)).map (Prod.map id (newInfo k r)) := by
      rw [List.zip_map_right, ← List.map_drop, List.filter_map]
      rfl
    show ({ newFind k r s2 with
        extrema := s2.extrema ++ (((x.idx.zip (x.info.map (newInfo k r))).drop (N + 1)).filter
          (fun q : ℕ × K × K × K => decide (q.1 > x.ref))).map Prod.fst
        info := s2.info.map (newInfo k r) ++ (((x.idx.zip (x.info.map (newInfo k r))).drop (N + 1)).filter
          (fun q : ℕ × K × K × K => decide (q.1 > x.ref))).map Prod.snd }, true) = _
    rw [hz, List.map_map, List.map_map]
    simp only [newFind, List.map_append, List.map_map]
    rfl
  · refine .ok ?_
    simp [newFind]

omit hk hr hl in
theorem findBody_new (limit : ℕ) {near near' : ℕ → K → Trend K → Option (Py (Near K))} (N : ℕ)
    (hn : ∀ ref adv p, near' ref adv (newTrend k r p) = (near ref adv p).map (Except.map (newNear k r))) (s : FindState K) :
    findBody limit near' N (newFind k r s)
      = Sum.map (newFind k r) (Option.map (Except.map (newFound k r))) (findBody limit near N s) := by
  unfold findBody
  dsimp only
  rw [show near' (newFind k r s).ref (newFind k r s).adv (newFind k r s).p = _ from hn s.ref s.adv s.p]
  cases near s.ref s.adv s.p with
  | none => rfl
  | some y =>
    cases y with
    | error e => rfl
    | ok x =>
      dsimp only [Option.map_some, Except.map]
      rw [show report N (newNear k r x) { newFind k r s with count := (newFind k r s).count + 1 } = _ from
        (report_new N x { s with count := s.count + 1 }).to_eq]
      cases report N x { s with count := s.count + 1 } with
      | error e => rfl
      | ok q =>
        obtain ⟨s', b⟩ := q
        cases b with
        | true => rfl
        | false =>
          dsimp only [Except.map]
          show (match pyGet x.idx N, pyGet x.idx (N + 1) with
            | .ok a, .ok b => _
            | _, _ => _) = _
          cases pyGet x.idx N with
          | error e => rfl
          | ok a =>
            cases pyGet x.idx (N + 1) with
            | error e => rfl
            | ok b =>
              dsimp only
              show (if s'.count > limit then _ else _) = _
              split <;> rfl

theorem globalSetup_new (cfg : FitsCfg K) (d : FitsData K) :
    PyRel (fun x y => y = (x.1.map (k * ·), x.2.1.map (r * ·), k * x.2.2.1, newTrend k r x.2.2.2.1, newTrend k r x.2.2.2.2.1,
        newTrend k r x.2.2.2.2.2)) (globalSetup lib cfg d) (globalSetup lib cfg (newData k r d)) := by
  have hk' := hk.ne'
  unfold globalSetup
  refine PyRel.bind (PyRel.refl (R := Eq) (fun _ => rfl) _) fun ph0 _ h => ?_
  subst h
  refine PyRel.bind (PyRel.refl (R := Eq) (fun _ => rfl) _) fun e _ h => ?_
  subst h
  dsimp only
  refine PyRel.bind (PyRel.pyGet (s := (k * ·)) d.t 0) fun a a' ha => ?_
  refine PyRel.bind (PyRel.pyLast (s := (k * ·)) d.t) fun b b' hb => ?_
  refine PyRel.bind (PyRel.pyGet (s := (r * ·)) d.data 0) fun da da' hda => ?_
  refine PyRel.bind (R := fun x y => y = r * x) (PyRel.ite Iff.rfl (fun _ _ => PyRel.pyLast (s := (r * ·)) d.data)
    fun _ _ => PyRel.pyGet (s := (r * ·)) d.data e) fun db db' hdb => ?_
  subst ha hb hda hdb
  have ht : 1 / 2 * (k * a + k * b) = k * (1 / 2 * (a + b)) := by ring
  have hf : 1 / 2 * (r * da + r * db) = r * (1 / 2 * (da + db)) := by ring
  rw [ht, hf]
  generalize 1 / 2 * (a + b) = t0
  generalize 1 / 2 * (da + db) = f0
  refine PyRel.ite (by simp [hk']) (fun _ _ => .error _) fun h0 _ => ?_
  refine .ok ?_
  have h1 : ∀ c : K, c * (r * f0) / (-(k * t0)) = r / k * (c * f0 / (-t0)) := by
    intro c
    field_simp
  unfold newTrend newData
  dsimp only
  rw [Filter.pySlice_map, Filter.pySlice_map, h1, h1]
  refine Prod.ext rfl (Prod.ext rfl (Prod.ext rfl (Prod.ext ?_ (Prod.ext ?_ ?_)))) <;> dsimp only <;>
    rw [Trend.mk.injEq] <;> refine ⟨by ring, by ring, by ring⟩

omit hr hl in
/-- Data without a unit, extrema not refined: the search gives the same extrema. -/
theorem findExtrema_new (hl : FitsUnitFree lib k 1) (limit fuel : ℕ) (cfg : FitsCfg K) (hrf : cfg.refine = false)
    (d : FitsData K) (sign : K) :
    findExtrema limit fuel lib cfg ⟨d.t.map (k * ·), d.phase, d.data⟩ sign
      = (findExtrema limit fuel lib cfg d sign).map (Except.map (newFound k 1)) := by
  have h1 : (0 : K) < 1 := one_pos
  have hd : (⟨d.t.map (k * ·), d.phase, d.data⟩ : FitsData K) = newData k 1 d := by
    unfold newData
    simp
  rw [hd]
  unfold findExtrema
  have hstart : PyRel (fun x y => y = (k * x.1, (newTrend k 1 x.2.1.1, newTrend k 1 x.2.1.2), newFind k 1 x.2.2))
      (do
        let (ts, ds, t0, p0, lo, hi) ← globalSetup lib cfg d
        let p ← fitTrend lib t0 ts ds p0 lo hi
        let adv : K := 11 / 10
        let ph0 ← pyGet d.phase 0
        let ref ← argmaxTrue (fun x => decide (x > ph0 + adv * ((cfg.N : K) - 1) * 4 * lib.pi)) d.phase
        if ref = 0 then .error .exception
        else pure (t0, (lo, hi), ⟨0, ref, adv, p, [], [], [], []⟩) : Py (K × (Trend K × Trend K) × FindState K))
      (do
        let (ts, ds, t0, p0, lo, hi) ← globalSetup lib cfg (newData k 1 d)
        let p ← fitTrend lib t0 ts ds p0 lo hi
        let adv : K := 11 / 10
        let ph0 ← pyGet (newData k 1 d).phase 0
        let ref ← argmaxTrue (fun x => decide (x > ph0 + adv * ((cfg.N : K) - 1) * 4 * lib.pi)) (newData k 1 d).phase
        if ref = 0 then .error .exception
        else pure (t0, (lo, hi), ⟨0, ref, adv, p, [], [], [], []⟩) : Py (K × (Trend K × Trend K) × FindState K)) := by
    refine PyRel.bind (globalSetup_new hk h1 hl cfg d) fun q q' hq => ?_
    subst hq
    obtain ⟨ts, ds, t0, p0, lo, hi⟩ := q
    dsimp only
    refine PyRel.bind (fitTrend_new hk h1 hl t0 ts ds p0 lo hi) fun p p' hp => ?_
    subst hp
    refine PyRel.bind (PyRel.refl (R := Eq) (fun _ => rfl) _) fun ph0 _ h => ?_
    subst h
    refine PyRel.bind (PyRel.refl (R := Eq) (fun _ => rfl) _) fun ref _ h => ?_
    subst h
    exact PyRel.ite Iff.rfl (fun _ _ => .error _) fun _ _ => .ok rfl
  dsimp only at hstart ⊢
  rw [hstart.to_eq]
  generalize (globalSetup lib cfg d >>= _ : Py (K × (Trend K × Trend K) × FindState K)) = st
  cases st with
  | error e => rfl
  | ok q =>
    obtain ⟨t0, bounds, s⟩ := q
    dsimp only [Except.map]
    rw [runLoop_map (findBody_new (k := k) (r := 1) limit cfg.N fun ref adv p => ?_) fuel s]
    · cases runLoop (findBody limit (findNear fuel lib cfg d t0 sign (1 / 10 ^ 8) bounds cfg.N (cfg.N + 1)) cfg.N) fuel s <;> rfl
    · have := findNear_new hk h1 hl fuel cfg (.inl hrf) d t0 sign (1 / 10 ^ 8) bounds cfg.N (cfg.N + 1) ref adv p
      rw [one_mul] at this
      exact this

end UnitsFits

end GwEcc
