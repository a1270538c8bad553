import Verif.Lemmas.UnitsData

/-! The spin filter under a change of units. -/

set_option linter.unusedSectionVars false

namespace GwEcc

open Spec

/-- Two computations with fuel: both need more, or both end in related ways. -/
inductive FuelRel {α β : Type} (R : α → β → Prop) : Option (Py α) → Option (Py β) → Prop
  | none : FuelRel R none none
  | some {x : Py α} {y : Py β} (h : PyRel R x y) : FuelRel R (some x) (some y)

theorem FuelRel.map {α β γ δ : Type} {R : α → β → Prop} {S : γ → δ → Prop} {x : Option (Py α)} {y : Option (Py β)}
    {f : Py α → Py γ} {g : Py β → Py δ} (h : FuelRel R x y) (hf : ∀ a b, PyRel R a b → PyRel S (f a) (g b)) :
    FuelRel S (x.map f) (y.map g) := by
  cases h with
  | none => exact .none
  | some h => exact .some (hf _ _ h)

namespace Filter

section
variable {K C : Type} [Field K] [LinearOrder K] [IsStrictOrderedRing K] [FloorRing K]

theorem npZip_gen (f g : K → K → K) (s1 s2 s3 : K → K) (h : ∀ x y, g (s1 x) (s2 y) = s3 (f x y)) (a b : List K) :
    PyRel (fun r r' => r' = r.map s3) (npZip f a b) (npZip g (a.map s1) (b.map s2)) := by
  unfold npZip
  rw [List.length_map, List.length_map]
  refine PyRel.ite Iff.rfl (fun _ _ => ?_) fun _ _ => .error _
  refine .ok ?_
  rw [List.zipWith_map, List.map_zipWith]
  congr 1
  funext x y
  exact h x y

theorem sgn_scale {r : K} (hr : 0 < r) (x : K) : sgn (r * x) = sgn x := by
  unfold sgn
  have h1 : r * x < 0 ↔ x < 0 := by
    constructor
    · intro h; by_contra hc; exact absurd (mul_nonneg hr.le (not_lt.mp hc)) (not_le.mpr h)
    · intro h; exact mul_neg_of_pos_of_neg hr h
  have h2 : r * x = 0 ↔ x = 0 := by simp [hr.ne']
  simp only [h1, h2]

theorem intersections_new {k r : K} (hk : 0 < k) (hr : 0 < r) (c : K) (t x y : List K) :
    PyRel (fun q q' => q' = (q.1.map (newTime k c), q.2.1.map (newTime k c), q.2.2.map (k * ·))) (intersections t x y)
      (intersections (t.map (newTime k c)) (x.map (r * ·)) (y.map (r * ·))) := by
  unfold intersections
  refine PyRel.bind (npZip_gen _ _ (r * ·) (r * ·) (r * ·) (fun a b => by ring) x y) fun d d' hd => ?_
  subst hd
  have e : (d.map (r * ·)).map sgn = d.map sgn := by
    rw [List.map_map]
    exact List.map_congr_left fun z _ => sgn_scale hr z
  rw [e]
  refine PyRel.ite Iff.rfl (fun _ _ => .error _) fun _ _ => ?_
  have hm := PyRel.mapM (s := id) (f := fun (i : ℕ) => pyGet t i) (f' := fun i => pyGet (t.map (newTime k c)) i)
    (g := newTime k c) (npWhere (fun s => decide (s ≠ 0)) (diff (d.map sgn))) fun i _ => PyRel.pyGet t i
  rw [List.map_id] at hm
  refine PyRel.bind hm fun tc tc' htc => ?_
  subst htc
  refine .ok ?_
  refine Prod.ext rfl (Prod.ext ?_ (diff_newTime hk c tc))
  dsimp only
  rw [← List.map_dropLast, ← List.map_tail, List.zipWith_map, List.map_zipWith]
  congr 1
  funext a b
  unfold newTime
  ring

theorem mean?_scale (r : K) (l : List K) : mean? (l.map (r * ·)) = (mean? l).map (r * ·) := by
  unfold mean?
  by_cases h : l = []
  · subst h; rfl
  · rw [if_neg h, if_neg (by simpa using h)]
    simp only [Option.map_some, List.length_map, Option.some.injEq]
    rw [List.sum_map_mul_left, List.map_id', mul_div_assoc]

theorem ratioAbove_scale {r : K} (hr : 0 < r) (a b th : K) : ratioAbove (r * a) (r * b) th = ratioAbove a b th := by
  unfold ratioAbove
  have : r * b = 0 ↔ b = 0 := by simp [hr.ne']
  simp only [this, mul_div_mul_left _ _ hr.ne']
  rw [decide_eq_decide.mpr (mul_pos_iff_of_pos_left hr)]

theorem factor_pos {u : Units K C} (hk : 0 < u.k) (hs : 0 < u.s) (kind : Kind) : 0 < u.factor kind := by
  cases kind
  · exact hs
  · exact inv_pos.mpr hk

theorem fit_new {lib : FilterLib K} {u : Units K C} (hl : FilterUnitFree lib u) (kind : Kind) (t d : List K) (tm : K) :
    PyRel (fun f f' => ∀ x, f' (newTime u.k u.c x) = u.factor kind * f x) (lib.fit t d kind tm)
      (lib.fit (t.map (newTime u.k u.c)) (d.map (u.factor kind * ·)) kind (newTime u.k u.c tm)) := by
  cases h : lib.fit t d kind tm with
  | ok f =>
    obtain ⟨f', h1, h2⟩ := (hl.fit kind t d tm).1 f h
    rw [h1]
    exact .ok h2
  | error e =>
    rw [(hl.fit kind t d tm).2 e h]
    exact .error e

theorem cubic_new {lib : FilterLib K} {u : Units K C} (hl : FilterUnitFree lib u) (x y : List K) :
    PyRel (fun f f' => ∀ p, f' (newTime u.k u.c p) = u.k * f p) (lib.cubic x y)
      (lib.cubic (x.map (newTime u.k u.c)) (y.map (u.k * ·))) := by
  cases h : lib.cubic x y with
  | ok f =>
    obtain ⟨f', h1, h2⟩ := (hl.cubic x y).1 f h
    rw [h1]
    exact .ok h2
  | error e =>
    rw [(hl.cubic x y).2 e h]
    exact .error e

theorem trend_map {u : Units K C} {kind : Kind} {f f' : K → K} (h : ∀ x, f' (newTime u.k u.c x) = u.factor kind * f x)
    (t : List K) : (t.map (newTime u.k u.c)).map f' = (t.map f).map (u.factor kind * ·) := by
  rw [List.map_map, List.map_map]
  exact List.map_congr_left fun x _ => h x

theorem getAll_map (s : K → K) (l : List K) (idx : List ℕ) :
    PyRel (fun r r' => r' = r.map s) (idx.mapM fun (i : ℕ) => pyGet l i) (idx.mapM fun (i : ℕ) => pyGet (l.map s) i) := by
  have := PyRel.mapM (s := id) (f := fun (i : ℕ) => pyGet l i) (f' := fun i => pyGet (l.map s) i) (g := s) idx
    fun i _ => PyRel.pyGet l i
  rwa [List.map_id] at this

theorem newTime_sub (k c x y : K) : newTime k c x - newTime k c y = k * (x - y) := by unfold newTime; ring

theorem checkRequirement_new {lib : FilterLib K} {u : Units K C} (hk : 0 < u.k) (hs : 0 < u.s) (hl : FilterUnitFree lib u)
    (threshold tm : K) (kind : Kind) (t d22 d2m : List K) :
    PyRel Eq (checkRequirement lib threshold tm kind t d22 d2m)
      (checkRequirement lib threshold (newTime u.k u.c tm) kind (t.map (newTime u.k u.c)) (d22.map (u.factor kind * ·))
        (d2m.map (u.factor kind * ·))) := by
  have hr := factor_pos hk hs kind
  unfold checkRequirement
  dsimp only
  refine PyRel.bind (npZip_gen _ _ (u.factor kind * ·) (u.factor kind * ·) (u.factor kind * ·) (fun a b => by ring) d22 d2m)
    fun asym asym' ha => ?_
  refine PyRel.bind (fit_new hl kind t d22 tm) fun f f' hf => ?_
  rw [trend_map hf]
  refine PyRel.bind (npZip_gen _ _ (u.factor kind * ·) (u.factor kind * ·) (u.factor kind * ·) (fun a b => by ring) d22 _)
    fun res res' hres => ?_
  subst ha hres
  have e : ∀ s : K, (d2m.map (u.factor kind * ·)).map (s * ·) = (d2m.map (s * ·)).map (u.factor kind * ·) := by
    intro s
    rw [List.map_map, List.map_map]
    exact List.map_congr_left fun x _ => by simp only [Function.comp]; ring
  rw [e]
  refine PyRel.bind (intersections_new hk hr u.c t d22 _) fun q q' hq => ?_
  obtain ⟨q1, q2, dT⟩ := q
  subst hq
  dsimp only
  refine PyRel.bind (PyRel.pyLast (s := (u.k * ·)) dT) fun last last' hlast => ?_
  refine PyRel.bind (PyRel.pyGet (s := newTime u.k u.c) t 1) fun t1 t1' ht1 => ?_
  refine PyRel.bind (PyRel.pyGet (s := newTime u.k u.c) t 0) fun t0 t0' ht0 => ?_
  subst hlast ht1 ht0
  rw [newTime_sub]
  refine PyRel.ite (by simp [hk.ne']) (fun _ _ => .error _) fun _ _ => ?_
  have e2 : 2 * (u.k * last) / (u.k * (t1 - t0)) = 2 * last / (t1 - t0) := by
    rw [mul_left_comm, mul_div_mul_left _ _ hk.ne']
  rw [e2, hl.peaks, hl.peaks]
  refine PyRel.bind (PyRel.refl (R := Eq) (fun _ => rfl) _) ?_
  rintro rp _ rfl
  refine PyRel.bind (PyRel.refl (R := Eq) (fun _ => rfl) _) ?_
  rintro ap _ rfl
  refine PyRel.bind (getAll_map (u.factor kind * ·) res rp) fun rv rv' hrv => ?_
  refine PyRel.bind (getAll_map (u.factor kind * ·) asym ap) fun av av' hav => ?_
  subst hrv hav
  rw [mean?_scale, mean?_scale]
  cases mean? av with
  | none => cases mean? rv <;> exact .ok rfl
  | some ma =>
    cases mean? rv with
    | none => exact .ok rfl
    | some mr => exact .ok (ratioAbove_scale hr ma mr threshold).symm

/-! ### Frequencies of the oscillations -/

theorem pickBy_new {k r : K} (hk : 0 < k) {best : List K → Py ℕ} (hb : ∀ l, best (l.map (r * ·)) = best l)
    (freqs spectrum : List K) (lo hi : K) :
    pickBy best (freqs.map (newFreq k)) (spectrum.map (r * ·)) (newFreq k lo) (newFreq k hi)
      = (pickBy best freqs spectrum lo hi).map (newFreq k) := by
  unfold pickBy
  have e : ((freqs.map (newFreq k)).zip (spectrum.map (r * ·))).filter
        (fun q => decide (newFreq k lo ≤ q.1) && decide (q.1 ≤ newFreq k hi))
      = ((freqs.zip spectrum).filter fun q => decide (lo ≤ q.1) && decide (q.1 ≤ hi)).map
          (fun q => (newFreq k q.1, r * q.2)) := by
    rw [List.zip_map]
    apply filter_map_of (s := Prod.map (newFreq k) (r * ·))
    rintro ⟨a, b⟩
    simp only [Prod.map, newFreq_le hk]
  dsimp only
  rw [e]
  have e2 : (((freqs.zip spectrum).filter fun q => decide (lo ≤ q.1) && decide (q.1 ≤ hi)).map
          (fun q => (newFreq k q.1, r * q.2))).map Prod.snd
      = (((freqs.zip spectrum).filter fun q => decide (lo ≤ q.1) && decide (q.1 ≤ hi)).map Prod.snd).map (r * ·) := by
    simp
  rw [e2, hb]
  generalize (freqs.zip spectrum).filter (fun q => decide (lo ≤ q.1) && decide (q.1 ≤ hi)) = sel
  cases best (sel.map Prod.snd) with
  | error e => rfl
  | ok i =>
    dsimp only
    rw [List.getElem?_map, Option.map_map, Option.map_map]
    rfl

theorem argmax_scale {r : K} (hr : 0 < r) (l : List K) : argmax (l.map (r * ·)) = argmax l :=
  argmax_map (r * ·) (fun _ _ h => mul_lt_mul_of_pos_left h hr) l

theorem getD_newFreq (k : K) (x : Option K) (d : K) : (x.map (newFreq k)).getD (newFreq k d) = newFreq k (x.getD d) := by
  cases x <;> rfl

theorem newFreq_mul (k a x : K) : a * newFreq k x = newFreq k (a * x) := by unfold newFreq; ring

theorem detect_new {k r : K} (hk : 0 < k) (hr : 0 < r) (freqs spectrum : List K) (guess a b c d : K) :
    detect (freqs.map (newFreq k)) (spectrum.map (r * ·)) (newFreq k guess) a b c d
      = (newFreq k (detect freqs spectrum guess a b c d).1, newFreq k (detect freqs spectrum guess a b c d).2.1,
        newFreq k (detect freqs spectrum guess a b c d).2.2) := by
  unfold detect
  dsimp only
  have d1 : ∀ x : K, newFreq k x / (5 / 2) = newFreq k (x / (5 / 2)) := fun x => by unfold newFreq; ring
  have d2 : ∀ x y : K, newFreq k x + newFreq k y = newFreq k (x + y) := fun x y => by unfold newFreq; ring
  simp only [newFreq_mul, pickBy_new hk (argmax_scale hr), getD_newFreq, d1, d2, pickBy_new hk (argmin_scale hr)]

theorem maskAt_new {k : K} (hk : 0 < k) (pi : K) (cos : K → K) (fCut taper f : K) :
    maskAt pi cos (newFreq k fCut) taper (newFreq k f) = maskAt pi cos fCut taper f := by
  unfold maskAt
  dsimp only
  have e : ∀ a : K, newFreq k fCut * a = newFreq k (fCut * a) := fun a => by unfold newFreq; ring
  have e2 : ∀ x y : K, newFreq k x - newFreq k y = newFreq k (x - y) := fun x y => by unfold newFreq; ring
  simp only [e, e2, gt_iff_lt, newFreq_lt hk, newFreq_le hk]
  have e3 : ∀ x : K, newFreq k x = 0 ↔ x = 0 := fun x => by unfold newFreq; simp [hk.ne']
  simp only [e3]
  have e4 : ∀ x y : K, pi * newFreq k x / newFreq k y = pi * x / y := fun x y => by
    unfold newFreq
    rw [← mul_div_assoc, div_div_div_cancel_right₀ hk.ne']
  simp only [e4]

theorem lowpassMask_new {k : K} (hk : 0 < k) (pi : K) (cos : K → K) (fCut taper : K) (freqs : List K) :
    lowpassMask pi cos (newFreq k fCut) taper (freqs.map (newFreq k)) = lowpassMask pi cos fCut taper freqs := by
  unfold lowpassMask
  rw [List.map_map]
  exact List.map_congr_left fun f _ => maskAt_new hk pi cos fCut taper f

theorem rfftfreq_new (k : K) (n : ℕ) (d : K) : rfftfreq n (k * d) = (rfftfreq n d).map (newFreq k) := by
  unfold rfftfreq
  rw [List.map_map]
  apply List.map_congr_left
  intro i _
  simp only [Function.comp, newFreq]
  rw [div_div]
  congr 1
  ring

theorem pad_map (r : K) (p : ℕ) (l : List K) : pad p (l.map (r * ·)) = (pad p l).map (r * ·) := by
  unfold pad
  simp [List.map_replicate]

theorem length_pad (p : ℕ) (l : List K) : (pad p l).length = p + l.length + p := by unfold pad; simp; omega

/-! ### Segments -/

theorem takeWhile_map_of {α β : Type} {s : α → β} {P : α → Bool} {Q : β → Bool} (h : ∀ x, Q (s x) = P x) (l : List α) :
    (l.map s).takeWhile Q = (l.takeWhile P).map s := by
  rw [List.takeWhile_map]
  congr 2
  funext x
  exact h x

theorem searchSorted_new {k : K} (hk : 0 < k) (c : K) (l : List K) (x : K) :
    searchSorted (l.map (newTime k c)) (newTime k c x) = searchSorted l x := by
  unfold searchSorted
  rw [takeWhile_map_of (P := fun y => decide (y < x)) (fun y => by rw [decide_eq_decide]; exact newTime_lt hk c),
    List.length_map]

theorem searchRight_new {k : K} (hk : 0 < k) (c : K) (l : List K) (x : K) :
    searchRight (l.map (newTime k c)) (newTime k c x) = searchRight l x := by
  unfold searchRight
  rw [takeWhile_map_of (P := fun y => decide (y ≤ x)) (fun y => by rw [decide_eq_decide]; exact newTime_le hk c),
    List.length_map]

/-- The filter object in the new units. -/
structure NewObj (u : Units K C) (o o' : FilterObj K) : Prop where
  t : o'.t = o.t.map (newTime u.k u.c)
  data : o'.data = o.data.map (u.factor o.kind * ·)
  kind : o'.kind = o.kind
  tm : o'.tMerger = newTime u.k u.c o.tMerger
  dT : ∀ x, o'.dT (newTime u.k u.c x) = u.k * o.dT x

theorem makeSegment_new {u : Units K C} (hk : 0 < u.k) (cfg : FilterCfg K) {o o' : FilterObj K} (h : NewObj u o o') (x : K) :
    PyRel (fun r r' => r' = (r.1.map (newTime u.k u.c), r.2.map (u.factor o.kind * ·))) (makeSegment cfg o x)
      (makeSegment cfg o' (newTime u.k u.c x)) := by
  unfold makeSegment
  dsimp only
  rw [h.t, h.data, h.dT]
  refine PyRel.bind (PyRel.pyGet (s := newTime u.k u.c) o.t 0) fun a a' ha => ?_
  refine PyRel.bind (PyRel.pyLast (s := newTime u.k u.c) o.t) fun b b' hb => ?_
  subst ha hb
  have e1 : newTime u.k u.c x - 1 / 2 * cfg.segmentSize * (u.k * o.dT x)
      = newTime u.k u.c (x - 1 / 2 * cfg.segmentSize * o.dT x) := by unfold newTime; ring
  have e2 : newTime u.k u.c x + 1 / 2 * cfg.segmentSize * (u.k * o.dT x)
      = newTime u.k u.c (x + 1 / 2 * cfg.segmentSize * o.dT x) := by unfold newTime; ring
  rw [e1, e2, ← (newTime_mono hk u.c).map_max, ← (newTime_mono hk u.c).map_min, searchSorted_new hk, searchRight_new hk,
    List.length_map]
  refine .ok ?_
  simp [List.map_take, List.map_drop]

/-- A filtered segment in the new units. -/
def newSegment (u : Units K C) (kind : Kind) (s : Segment K) : Segment K :=
  ⟨s.t.map (newTime u.k u.c), s.filtered.map (u.factor kind * ·)⟩

theorem pySlice_map {α β : Type} (f : α → β) (l : List α) (a b : ℤ) : pySlice (l.map f) a b = (pySlice l a b).map f := by
  unfold pySlice
  simp [List.map_take, List.map_drop]

theorem filterSegment_new {lib : FilterLib K} {u : Units K C} (hk : 0 < u.k) (hs : 0 < u.s) (hl : FilterUnitFree lib u)
    (cfg : FilterCfg K) {o o' : FilterObj K} (h : NewObj u o o') (x : K) :
    PyRel (fun r r' => r' = newSegment u o.kind r) (filterSegment lib cfg o x) (filterSegment lib cfg o' (newTime u.k u.c x)) := by
  have hr := factor_pos hk hs o.kind
  unfold filterSegment
  refine PyRel.bind (makeSegment_new hk cfg h x) fun q q' hq => ?_
  obtain ⟨ts, ds⟩ := q
  subst hq
  dsimp only
  rw [h.kind, h.tm, h.dT]
  refine PyRel.bind (fit_new hl o.kind ts ds o.tMerger) fun f f' hf => ?_
  rw [trend_map hf]
  refine PyRel.bind (npZip_gen _ _ (u.factor o.kind * ·) (u.factor o.kind * ·) (u.factor o.kind * ·) (fun a b => by ring) ds _)
    fun res res' hres => ?_
  subst hres
  rw [List.length_map]
  have hw := npZip_gen (· * ·) (· * ·) id (u.factor o.kind * ·) (u.factor o.kind * ·) (fun a b => by simp only [id]; ring)
    (lib.hamming res.length) res
  rw [List.map_id] at hw
  refine PyRel.bind hw fun win win' hwin => ?_
  subst hwin
  refine PyRel.bind (PyRel.pyGet (s := newTime u.k u.c) ts 1) fun t1 t1' ht1 => ?_
  refine PyRel.bind (PyRel.pyGet (s := newTime u.k u.c) ts 0) fun t0 t0' ht0 => ?_
  subst ht1 ht0
  rw [newTime_sub]
  refine PyRel.ite (by simp [hk.ne']) (fun _ _ => .error _) fun _ _ => ?_
  simp only [length_pad, List.length_map, pad_map, hl.spectrum, hl.lowpass, rfftfreq_new]
  have eg : 1 / (u.k * o.dT x) = newFreq u.k (1 / o.dT x) := by
    unfold newFreq
    rw [div_div, mul_comm]
  rw [eg, detect_new hk hr]
  dsimp only
  rw [lowpassMask_new hk]
  cases (lowpassMask lib.pi lib.cos _ cfg.taper _).mapM id with
  | none => exact .error _
  | some mask =>
    dsimp only
    rw [pySlice_map]
    refine PyRel.bind (npZip_gen _ _ (u.factor o.kind * ·) (u.factor o.kind * ·) (u.factor o.kind * ·)
      (fun a b => by ring) _ _) fun y y' hy => ?_
    subst hy
    exact .ok rfl

theorem addAt_map (r : K) (full vals : List K) (start : ℕ) :
    addAt (full.map (r * ·)) start (vals.map (r * ·)) = (addAt full start vals).map (r * ·) := by
  unfold addAt
  apply List.ext_getElem
  · simp
  · intro i h1 h2
    simp only [List.getElem_mapIdx, List.getElem_map, List.getElem?_map]
    split
    · cases vals[i - start]? <;> simp [mul_add]
    · rfl

theorem accumulate_new {u : Units K C} (hk : 0 < u.k) (kind : Kind) (hanning : ℕ → List K) (t : List K)
    (acc : List K × List K) (s : Segment K) :
    PyRel (fun a a' => a' = (a.1.map (u.factor kind * ·), a.2)) (accumulate hanning t acc s)
      (accumulate hanning (t.map (newTime u.k u.c)) (acc.1.map (u.factor kind * ·), acc.2) (newSegment u kind s)) := by
  unfold accumulate newSegment
  dsimp only
  refine PyRel.bind (PyRel.pyGet (s := newTime u.k u.c) s.t 0) fun a a' ha => ?_
  subst ha
  rw [searchSorted_new hk, List.length_map, List.length_map, ← List.map_take]
  have hw := npZip_gen (· * ·) (· * ·) (u.factor kind * ·) id (u.factor kind * ·) (fun a b => by simp only [id]; ring)
    (s.filtered.take (min (searchSorted t a + s.filtered.length) t.length - searchSorted t a))
    (hanning (min (searchSorted t a + s.filtered.length) t.length - searchSorted t a))
  rw [List.map_id] at hw
  refine PyRel.bind hw fun y y' hy => ?_
  subst hy
  exact .ok (by rw [addAt_map])

theorem npInterp_units {k : K} (hk : 0 < k) (c r x : K) : ∀ l : List (K × K),
    npInterp (newTime k c x) (l.map fun q => (newTime k c q.1, r * q.2)) = (npInterp x l).map (r * ·)
  | [] => rfl
  | [q] => rfl
  | q0 :: q1 :: l => by
    have ih := npInterp_units hk c r x (q1 :: l)
    simp only [List.map_cons] at ih ⊢
    unfold npInterp
    rw [ih]
    simp only [newTime_lt hk, newTime_le hk, newTime_sub]
    split
    · rfl
    · split
      · simp only [Except.map, Except.ok.injEq]
        rw [← mul_sub, mul_div_mul_comm, mul_add]
        have hk' := hk.ne'
        field_simp
      · rfl

theorem foldlM_rel {σ τ α β : Type} {R : σ → τ → Prop} {f : σ → α → Py σ} {g : τ → β → Py τ} {m : α → β}
    (h : ∀ a b x, R a b → PyRel R (f a x) (g b (m x))) : ∀ (l : List α) (a : σ) (b : τ), R a b →
    PyRel R (l.foldlM f a) ((l.map m).foldlM g b)
  | [], a, b, hab => .ok hab
  | x :: l, a, b, hab => by
    rw [List.map_cons, List.foldlM_cons, List.foldlM_cons]
    exact PyRel.bind (h a b x hab) fun a' b' h' => foldlM_rel h l a' b' h'

theorem combine_new {u : Units K C} (hk : 0 < u.k) (kind : Kind) (hanning : ℕ → List K) (t : List K) (segs : List (Segment K)) :
    PyRel (fun r r' => r' = r.map (u.factor kind * ·)) (combine hanning t segs)
      (combine hanning (t.map (newTime u.k u.c)) (segs.map (newSegment u kind))) := by
  unfold combine
  dsimp only
  rw [List.length_map]
  refine PyRel.bind (foldlM_rel (R := fun a a' => a' = (a.1.map (u.factor kind * ·), a.2)) ?_ segs _ _ ?_) fun q q' hq => ?_
  · rintro a b x rfl
    exact accumulate_new hk kind hanning t a x
  · simp
  obtain ⟨y, w⟩ := q
  subst hq
  dsimp only
  have ez : (t.map (newTime u.k u.c)).zip ((y.map (u.factor kind * ·)).zip w)
      = (t.zip (y.zip w)).map fun q => (newTime u.k u.c q.1, (u.factor kind * q.2.1, q.2.2)) := by
    have e0 : (y.map (u.factor kind * ·)).zip w = (y.zip w).map fun q => (u.factor kind * q.1, q.2) := by
      rw [List.zip_map_left]; rfl
    rw [e0, List.zip_map]; rfl
  rw [ez]
  have en : (((t.zip (y.zip w)).map fun q => (newTime u.k u.c q.1, (u.factor kind * q.2.1, q.2.2))).filter
        fun q => decide (0 < q.2.2)).map (fun q => (q.1, q.2.1 / q.2.2))
      = (((t.zip (y.zip w)).filter fun q => decide (0 < q.2.2)).map fun q => (q.1, q.2.1 / q.2.2)).map
          fun q => (newTime u.k u.c q.1, u.factor kind * q.2) := by
    rw [filter_map_of (P := fun q : K × K × K => decide (0 < q.2.2)) (fun q => rfl), List.map_map, List.map_map]
    apply List.map_congr_left
    intro q _
    simp only [Function.comp, mul_div_assoc]
  rw [en]
  refine PyRel.mapM _ fun q _ => ?_
  refine PyRel.ite Iff.rfl (fun _ _ => .ok (mul_div_assoc _ _ _)) fun _ _ => ?_
  exact PyRel.of_map (npInterp_units hk u.c _ _ _)

theorem runLoop_rel {σ τ α β : Type} {R : σ → τ → Prop} {S : α → β → Prop} {f : σ → σ ⊕ Py α} {g : τ → τ ⊕ Py β}
    (h : ∀ a b, R a b → (∃ a' b', f a = .inl a' ∧ g b = .inl b' ∧ R a' b') ∨
      ∃ x y, f a = .inr x ∧ g b = .inr y ∧ PyRel S x y) : ∀ (n : ℕ) (a : σ) (b : τ), R a b →
    FuelRel S (runLoop f n a) (runLoop g n b)
  | 0, _, _, _ => .none
  | n + 1, a, b, hab => by
    rcases h a b hab with ⟨a', b', h1, h2, h3⟩ | ⟨x, y, h1, h2, h3⟩
    · rw [runLoop_inl h1, runLoop_inl h2]
      exact runLoop_rel h n a' b' h3
    · rw [runLoop_inr h1, runLoop_inr h2]
      exact .some h3

theorem applyFilter_new (fuel : ℕ) {lib : FilterLib K} {u : Units K C} (hk : 0 < u.k) (hs : 0 < u.s)
    (hl : FilterUnitFree lib u) (cfg : FilterCfg K) {o o' : FilterObj K} (h : NewObj u o o') :
    FuelRel (fun r r' => r' = r.map (u.factor o.kind * ·)) (applyFilter fuel lib cfg o) (applyFilter fuel lib cfg o') := by
  unfold applyFilter
  have hseg : FuelRel (fun r r' => r' = r.map (newSegment u o.kind)) (segments fuel lib cfg o) (segments fuel lib cfg o') := by
    unfold segments
    rw [h.t]
    have h0 := PyRel.pyGet (s := newTime u.k u.c) o.t 0
    have h1 := PyRel.pyLast (s := newTime u.k u.c) o.t
    generalize pyGet (o.t.map (newTime u.k u.c)) 0 = a' at h0
    generalize pyLast (o.t.map (newTime u.k u.c)) = b' at h1
    revert h0 h1
    generalize pyGet o.t 0 = a
    generalize pyLast o.t = b
    intro h0 h1
    cases h0 with
    | error e => exact .some (.error _)
    | ok h0 =>
      rename_i a0 _
      cases h1 with
      | error e => exact .some (.error _)
      | ok h1 =>
        rename_i b0 _
        subst h0 h1
        dsimp only
        refine runLoop_rel (R := fun s s' => s' = (newTime u.k u.c s.1, s.2.map (newSegment u o.kind))) ?_ fuel _ _ rfl
        rintro ⟨x, l⟩ _ rfl
        unfold segmentStep
        dsimp only
        simp only [newTime_lt hk]
        by_cases hx : x < b0
        · rw [if_pos hx, if_pos hx]
          have hf := filterSegment_new hk hs hl cfg h x
          generalize filterSegment lib cfg o' (newTime u.k u.c x) = y at hf
          revert hf
          generalize filterSegment lib cfg o x = z
          intro hf
          cases hf with
          | error e => exact Or.inr ⟨_, _, rfl, rfl, .error e⟩
          | ok hf =>
            subst hf
            refine Or.inl ⟨_, _, rfl, rfl, ?_⟩
            rw [h.dT, List.map_append]
            refine Prod.ext ?_ rfl
            dsimp only
            unfold newTime
            ring
        · rw [if_neg hx, if_neg hx]
          exact Or.inr ⟨_, _, rfl, rfl, .ok rfl⟩
  refine hseg.map fun a b hab => ?_
  refine PyRel.bind hab fun r r' hr => ?_
  subst hr
  rw [h.t]
  exact combine_new hk o.kind lib.hanning o.t r

/-! ### The whole filter -/

/-- The modes in the new units. -/
def newCopr (u : Units K C) (m : CoprModes K) : CoprModes K :=
  ⟨m.t.map (newTime u.k u.c), m.amp22.map (u.s * ·), m.amp2m2.map (u.s * ·), m.omega22.map (newFreq u.k),
    m.omega2m2.map (newFreq u.k), m.phase22, m.phase2m2⟩

theorem newFreq_factor (u : Units K C) : newFreq u.k = (u.factor .omega * ·) := by
  funext x
  show x / u.k = u.k⁻¹ * x
  rw [div_eq_inv_mul]

theorem newCopr_get (u : Units K C) (m : CoprModes K) (kind : Kind) :
    (newCopr u m).get kind = ((m.get kind).1.map (u.factor kind * ·), (m.get kind).2.map (u.factor kind * ·)) := by
  cases kind
  · rfl
  · rw [← newFreq_factor]; rfl

theorem makeFilter_new {lib : FilterLib K} {u : Units K C} (hk : 0 < u.k) (hs : 0 < u.s) (hl : FilterUnitFree lib u)
    (cfg : FilterCfg K) (tm : K) (m : CoprModes K) (kind : Kind) :
    PyRel (fun r r' => r'.1 = r.1.map (u.factor kind * ·) ∧
        ((r.2 = none ∧ r'.2 = none) ∨ ∃ o o', r.2 = some o ∧ r'.2 = some o' ∧ o.kind = kind ∧ NewObj u o o'))
      (makeFilter lib cfg tm m kind) (makeFilter lib cfg (newTime u.k u.c tm) (newCopr u m) kind) := by
  unfold makeFilter original
  simp only [newCopr_get]
  refine PyRel.bind (npZip_gen _ _ (u.factor kind * ·) (u.factor kind * ·) (u.factor kind * ·) (fun a b => by ring) _ _)
    fun data data' hd => ?_
  subst hd
  refine PyRel.bind (checkRequirement_new hk hs hl _ _ _ _ _ _) ?_
  rintro required _ rfl
  refine PyRel.ite Iff.rfl (fun _ _ => .ok ⟨rfl, Or.inl ⟨rfl, rfl⟩⟩) fun _ _ => ?_
  generalize cfg.kindForSpin.getD kind = spin
  have e : ((m.get spin).2.map (u.factor spin * ·)).map (spin.sign * ·)
      = ((m.get spin).2.map (spin.sign * ·)).map (u.factor spin * ·) := by
    rw [List.map_map, List.map_map]
    exact List.map_congr_left fun x _ => by simp only [Function.comp]; ring
  rw [e]
  refine PyRel.bind (intersections_new hk (factor_pos hk hs spin) u.c m.t _ _) fun q q' hq => ?_
  obtain ⟨tc, tMid, dT⟩ := q
  subst hq
  dsimp only
  rw [List.length_map]
  refine PyRel.ite Iff.rfl (fun _ _ => ?_) fun _ _ => ?_
  · refine PyRel.bind (PyRel.refl (R := Eq) (fun _ => rfl) _) fun _ _ _ => ?_
    refine PyRel.bind (cubic_new hl tMid dT) fun f f' hf => ?_
    exact .ok ⟨rfl, Or.inr ⟨_, _, rfl, rfl, rfl, rfl, rfl, rfl, rfl, hf⟩⟩
  · refine PyRel.bind (cubic_new hl tMid dT) fun f f' hf => ?_
    exact .ok ⟨rfl, Or.inr ⟨_, _, rfl, rfl, rfl, rfl, rfl, rfl, rfl, hf⟩⟩

/-- A filtered quantity with all its numbers changed. -/
def mapBest (f : K → K) (b : Best K) : Best K := ⟨b.best.map f, b.original.map f, b.filtered.map (List.map f)⟩

theorem filterKind_new (fuel : ℕ) {lib : FilterLib K} {u : Units K C} (hk : 0 < u.k) (hs : 0 < u.s)
    (hl : FilterUnitFree lib u) (cfg : FilterCfg K) (tm : K) (m : CoprModes K) (kind : Kind) :
    FuelRel (fun r r' => r' = mapBest (u.factor kind * ·) r) (filterKind fuel lib cfg tm m kind)
      (filterKind fuel lib cfg (newTime u.k u.c tm) (newCopr u m) kind) := by
  unfold filterKind
  have h := makeFilter_new hk hs hl cfg tm m kind
  generalize makeFilter lib cfg (newTime u.k u.c tm) (newCopr u m) kind = y at h
  revert h
  generalize makeFilter lib cfg tm m kind = z
  intro h
  cases h with
  | error e => exact .some (.error e)
  | ok h =>
    rename_i a b
    obtain ⟨d, x⟩ := a
    obtain ⟨d', x'⟩ := b
    obtain ⟨h1, h2⟩ := h
    dsimp only at h1 h2
    subst h1
    rcases h2 with ⟨rfl, rfl⟩ | ⟨o, o', rfl, rfl, ho, h⟩
    · exact .some (.ok rfl)
    dsimp only
    by_cases hd : cfg.doNotFilter = true
    · rw [if_pos hd, if_pos hd]
      refine .some ?_
      exact PyRel.bind (PyRel.refl (R := Eq) (fun _ => rfl) _) fun _ _ _ => .ok rfl
    · rw [if_neg hd, if_neg hd]
      refine (applyFilter_new fuel hk hs hl cfg h).map fun a b hab => ?_
      refine PyRel.bind hab fun f f' hf => ?_
      subst hf
      rw [ho]
      exact .ok rfl

theorem cumsum_scale (r : K) (l : List K) : cumsum (l.map (r * ·)) = (cumsum l).map (r * ·) := by
  unfold cumsum
  rw [List.length_map, List.map_map]
  apply List.map_congr_left
  intro i _
  simp only [Function.comp]
  rw [← List.map_take, List.sum_map_mul_left, List.map_id']

theorem filterPhase_new {u : Units K C} (hk : 0 < u.k) (m : CoprModes K) (w : Best K) :
    PyRel Eq (filterPhase m w) (filterPhase (newCopr u m) (mapBest (newFreq u.k) w)) := by
  unfold filterPhase newCopr
  dsimp only
  refine PyRel.bind (PyRel.refl (R := Eq) (fun _ => rfl) _) ?_
  rintro p _ rfl
  unfold mapBest
  dsimp only
  cases w.filtered with
  | none => exact .ok rfl
  | some w =>
    dsimp only [Option.map_some]
    refine PyRel.bind (PyRel.pyGet (s := newTime u.k u.c) m.t 1) fun t1 t1' ht1 => ?_
    refine PyRel.bind (PyRel.pyGet (s := newTime u.k u.c) m.t 0) fun t0 t0' ht0 => ?_
    subst ht1 ht0
    have e : ((cumsum (w.map (newFreq u.k))).map (· * (newTime u.k u.c t1 - newTime u.k u.c t0)))
        = (cumsum w).map (· * (t1 - t0)) := by
      rw [newFreq_factor, cumsum_scale, List.map_map]
      apply List.map_congr_left
      intro x _
      simp only [Function.comp, newTime_sub]
      show u.k⁻¹ * x * (u.k * (t1 - t0)) = _
      have := hk.ne'
      field_simp
    rw [e]
    exact .ok rfl

theorem checkAndFilter_new (fuel : ℕ) {lib : FilterLib K} {u : Units K C} (hk : 0 < u.k) (hs : 0 < u.s)
    (hl : FilterUnitFree lib u) (cfg : FilterCfg K) (tm : K) (m : CoprModes K) :
    FuelRel (fun r r' => r' = ⟨mapBest (u.s * ·) r.amp, mapBest (newFreq u.k) r.omega, r.phase⟩)
      (checkAndFilter fuel lib cfg tm m) (checkAndFilter fuel lib cfg (newTime u.k u.c tm) (newCopr u m)) := by
  unfold checkAndFilter
  have ha := filterKind_new fuel hk hs hl cfg tm m .amp
  have hw := filterKind_new fuel hk hs hl cfg tm m .omega
  revert ha hw
  generalize filterKind fuel lib cfg (newTime u.k u.c tm) (newCopr u m) .amp = a'
  generalize filterKind fuel lib cfg (newTime u.k u.c tm) (newCopr u m) .omega = w'
  generalize filterKind fuel lib cfg tm m .amp = a
  generalize filterKind fuel lib cfg tm m .omega = w
  intro ha hw
  cases ha with
  | none => exact .none
  | some ha =>
    cases ha with
    | error e => exact .some (.error e)
    | ok ha =>
      dsimp only
      cases hw with
      | none => exact .none
      | some hw =>
        cases hw with
        | error e => exact .some (.error e)
        | ok hw =>
          subst ha hw
          dsimp only
          refine .some ?_
          rw [← newFreq_factor]
          refine PyRel.bind (filterPhase_new hk m _) ?_
          rintro p _ rfl
          exact .ok rfl

end

end Filter

end GwEcc
