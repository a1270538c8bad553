import Verif.Model.Segment
import Verif.Loop

/-!
# Model of the extrema search by fits

Python source: `gw_eccentricity/eccDefinitionUsingFrequencyFits.py` (whole file; `eccDefinitionUsingAmplitudeFits.py` inherits
the search and differs in the data and the default options) and `gw_eccentricity/utils.py` 406-448.

Parameters: the power function, scipy's `curve_fit`, `least_squares`, `find_peaks` and the two polynomial fits of the
refinement.  Plots and printed output are not modelled.
-/

namespace GwEcc

section fits

variable {K : Type} [Field K] [LinearOrder K]

/-- Parameters of the fitted trend: value and slope at the centre time, and time of the singularity. -/
structure Trend (K : Type) where
  f0 : K
  f1 : K
  T : K
  deriving DecidableEq

/-- eccDefinitionUsingFrequencyFits.py 33-47 without the check, and utils.py 426-432 `model`: `A*(T-t)**n` with
`n = -(T-t0)*f1/f0` and `A = f0*(T-t0)**(-n)`. -/
def trendAt (pow : K → K → K) (t0 : K) (p : Trend K) (t : K) : K :=
  let n := -(p.T - t0) * p.f1 / p.f0
  p.f0 * pow (p.T - t0) (-n) * pow (p.T - t) n

/-- eccDefinitionUsingFrequencyFits.py 33-47 `envelope_fitting_function.__call__`. -/
def envelope (pow : K → K → K) (t0 : K) (p : Trend K) (t : List K) : Py (List K) := do
  let m ← npMax t
  if m > p.T then .error .exception else .ok (t.map (trendAt pow t0 p))

/-- scipy's checks before a bounded fit: each lower bound is smaller than the upper one and the start is between them
(`ValueError` otherwise). -/
def feasible (p0 lo hi : Trend K) : Bool :=
  decide (lo.f0 < hi.f0) && decide (lo.f1 < hi.f1) && decide (lo.T < hi.T) &&
  decide (lo.f0 ≤ p0.f0) && decide (p0.f0 ≤ hi.f0) && decide (lo.f1 ≤ p0.f1) && decide (p0.f1 ≤ hi.f1) &&
  decide (lo.T ≤ p0.T) && decide (p0.T ≤ hi.T)

/-- utils.py 419-448 `QusicircularFitForMappingFrequencyToTime`: centre time, start and bounds of the fit.  `t0 = 0` divides by
zero (Python floats: inf or nan, rejected by scipy). -/
def secularSetup (times freqs : List K) : Py (K × Trend K × Trend K × Trend K) := do
  let a ← pyGet times 0
  let b ← pyLast times
  let t0 := 1 / 2 * (a + b)
  let M ← npMax freqs
  let m ← npMin freqs
  let f0 := 1 / 2 * (M + m)
  if t0 = 0 then .error .valueError
  else pure (t0, ⟨f0, 3 / 8 * f0 / (-t0), 0⟩, ⟨0, 0, 8 / 10 * b⟩, ⟨10 * f0, 10 * f0 / (-t0), -t0⟩)

/-- utils.py 434-448 `least_square_fit` followed by `model` at the given times (eccDefinition.py 1986-1990); `solve` is
`scipy.optimize.least_squares` once its checks have passed. -/
def secularTrend (pow : K → K → K) (solve : List K → List K → Trend K → Py (Trend K)) (times freqs : List K) :
    Py (List K) := do
  let (t0, p0, lo, hi) ← secularSetup times freqs
  if feasible p0 lo hi then do
    let p ← solve times freqs p0
    pure (times.map (trendAt pow t0 p))
  else .error .valueError

/-- Options of the methods (eccDefinitionUsingFrequencyFits.py 130-139) and whether extrema are refined. -/
structure FitsCfg (K : Type) where
  nPN : K
  maxAmpFactor : K
  maxNPNFactor : K
  prominenceFactor : K
  distanceFactor : K
  /-- `num_orbits`; a natural number here -/
  N : ℕ
  numGlobal : ℕ
  refine : Bool

/-- Numerical libraries used by the search. -/
structure FitsLib (K : Type) where
  pi : K
  pow : K → K → K
  /-- `scipy.optimize.curve_fit` for the trend with centre time `t0`: times, data, start, lower and upper bounds, after
  the checks of `feasible` -/
  curveFit : K → List K → List K → Trend K → Trend K → Trend K → Py (Trend K)
  /-- `scipy.signal.find_peaks(data, distance, prominence)` -/
  findPeaks : List K → ℤ → K → Py (List ℕ)
  /-- position and value of the extremum of a parabola fitted to times and residual data -/
  parabola : List K → List K → Py (K × K)
  /-- value at a time of a cubic fitted to times and phases -/
  cubic : List K → List K → K → Py K

/-- `curve_fit` with bounds. -/
def fitTrend (lib : FitsLib K) (t0 : K) (t data : List K) (p0 lo hi : Trend K) : Py (Trend K) :=
  if feasible p0 lo hi then lib.curveFit t0 t data p0 lo hi else .error .valueError

/-- `np.argmax(mask)`: the first true entry, 0 if there is none. -/
def argmaxTrue (p : K → Bool) (l : List K) : Py ℕ :=
  match l with
  | [] => .error .valueError
  | _ => .ok ((npWhere p l).headD 0)

/-- The waveform seen by the search: times with the merger at 0, phase, and the data whose extrema are sought. -/
structure FitsData (K : Type) where
  t : List K
  phase : List K
  data : List K

/-- `l[lo:hi]` for indices that are not negative. -/
def cut {α : Type} (l : List α) (lo hi : ℕ) : List α := (l.take hi).drop lo

/-- eccDefinitionUsingFrequencyFits.py 644-645: data minus trend on `[lo:hi]`. -/
def residual (lib : FitsLib K) (d : FitsData K) (t0 : K) (p : Trend K) (lo hi : ℕ) : Py (List K) := do
  let f ← envelope lib.pow t0 p (cut d.t lo hi)
  npZip (· - ·) (cut d.data lo hi) f

/-- eccDefinitionUsingFrequencyFits.py 937-956 `compute_distance_and_prominence`.  A vanishing divisor gives inf or nan in
numpy, whose conversion to an integer raises. -/
def distanceProminence [FloorRing K] (lib : FitsLib K) (cfg : FitsCfg K) (d : FitsData K) (t0 : K) (p : Trend K)
    (lo hi : ℕ) : Py (ℤ × K) := do
  let maxdt ← npMax (diff (cut d.t lo hi))
  let t1 ← pyGet d.t (hi - 1)
  let ta ← pyGet d.t lo
  let p1 ← pyGet d.phase (hi - 1)
  let pa ← pyGet d.phase lo
  if p1 - pa = 0 ∨ maxdt = 0 then .error .valueError
  else do
    let period := (t1 - ta) / (p1 - pa) * 4 * lib.pi
    let r ← residual lib d t0 p lo hi
    let M ← npMax r
    let m ← npMin r
    pure (pyInt (cfg.distanceFactor * period / maxdt), (M - m) * cfg.prominenceFactor)

/-- eccDefinitionUsingFrequencyFits.py 970-1009: refinement of one extremum `(t, data, phase)`. -/
def refineOne (lib : FitsLib K) (d : FitsData K) (t0 : K) (p : Trend K) (x : K × K × K) : Py (K × K × K) :=
  let sel := npWhere (fun y => decide (|y - x.1| < 5 / 100 / x.2.1)) d.t
  if sel.length ≥ 7 then do
    let ts := sel.filterMap (d.t[·]?)
    let f ← envelope lib.pow t0 p ts
    let r ← npZip (· - ·) (sel.filterMap (d.data[·]?)) f
    let (tMax, v) ← lib.parabola ts r
    let g ← envelope lib.pow t0 p [tMax]
    let g0 ← pyGet g 0
    let ph ← lib.cubic ts (sel.filterMap (d.phase[·]?)) tMax
    pure (tMax, v + g0, ph)
  else pure x

/-- eccDefinitionUsingFrequencyFits.py 672-674 and 688-693: times, data and phases at the extrema, refined if requested. -/
def extremaInfo (lib : FitsLib K) (cfg : FitsCfg K) (d : FitsData K) (t0 : K) (p : Trend K) (idx : List ℕ) :
    Py (List (K × K × K)) := do
  let info ← idx.mapM fun i => do
    let a ← pyGet d.t i
    let b ← pyGet d.data i
    let c ← pyGet d.phase i
    pure (a, b, c)
  if cfg.refine then info.mapM (refineOne lib d t0 p) else pure info

/-- State of the loop of `FindExtremaNearIdxRef`. -/
structure NearState (K : Type) where
  it : ℕ
  lo : ℕ
  hi : ℕ
  ref : ℕ
  adv : K
  p : Trend K
  old : List K
  /-- `(old_idx_lo, old_idx_hi)`, initially `(-1, -1)` -/
  oldInterval : Option (ℕ × ℕ)
  short : ℕ
  /-- `interval_changed_on_it`, initially -1 -/
  changedOn : Option ℕ

/-- What `FindExtremaNearIdxRef` returns. -/
structure Near (K : Type) where
  idx : List ℕ
  p : Trend K
  adv : K
  ref : ℕ
  info : List (K × K × K)

/-- eccDefinitionUsingFrequencyFits.py 762-806: new `idx_lo`, `idx_ref` and `Nright` (`increase_idx_ref_if_needed` is true in
the only call). -/
def adjustLo (lib : FitsLib K) (d : FitsData K) (idx : List ℕ) (nBefore nLeft nRight : ℕ) (adv : K) (lo ref : ℕ) :
    Py (ℕ × ℕ × ℕ) :=
  if nLeft > nBefore then do
    let a ← pyGet idx (nLeft - nBefore - 1)
    let b ← pyGet idx (nLeft - nBefore)
    pure ((a + b) / 2, ref, nRight)
  else if nLeft < nBefore then
    if lo = 0 then
      if nRight ≥ 2 then do
        let tmp := (npWhere (fun i => decide (i ≥ ref)) idx).headD 0
        let a ← pyGet idx tmp
        let b ← pyGet idx (tmp + 1)
        pure (lo, (a + b) / 2, nRight - 1)
      else pure (lo, ref, nRight)
    else do
      let ph ← pyGet d.phase lo
      let lo ← argmaxTrue (fun x => decide (x > ph - adv * 4 * lib.pi * (6 / 10))) d.phase
      pure (lo, ref, nRight)
  else pure (lo, ref, nRight)

/-- eccDefinitionUsingFrequencyFits.py 809-837: new `idx_hi`.  `idx_extrema[Nafter-Nright]` has a negative index. -/
def adjustHi (lib : FitsLib K) (d : FitsData K) (idx : List ℕ) (nAfter nRight : ℕ) (adv : K) (hi : ℕ) : Py ℕ :=
  if nRight > nAfter then
    if nRight - nAfter + 1 ≤ idx.length then do
      let a ← pyGet idx (idx.length - (nRight - nAfter))
      let b ← pyGet idx (idx.length - (nRight - nAfter) - 1)
      pure ((a + b) / 2)
    else .error .indexError
  else if nRight < nAfter then
    if hi < d.phase.length then do
      let ph ← pyGet d.phase hi
      let h ← argmaxTrue (fun x => decide (x > ph + adv * 4 * lib.pi * (6 / 10))) d.phase
      pure (if h = 0 then d.phase.length else h)
    else pure hi
  else pure hi

/-- eccDefinitionUsingFrequencyFits.py 758-845: adjustment of the interval when the number of extrema is not the desired
one; the last entry tells whether to look for extrema again. -/
def adjust (lib : FitsLib K) (d : FitsData K) (idx : List ℕ) (nBefore nAfter nLeft nRight : ℕ) (adv : K) (s : NearState K) :
    Py (NearState K × ℕ × Bool) :=
  if nLeft ≠ nBefore ∨ nRight ≠ nAfter then do
    let (lo, ref, nRight) ← adjustLo lib d idx nBefore nLeft nRight adv s.lo s.ref
    let hi ← adjustHi lib d idx nAfter nRight adv s.hi
    if s.oldInterval ≠ some (lo, hi) then
      pure ({ s with lo, ref, hi, changedOn := some s.it, oldInterval := some (lo, hi) }, nRight, true)
    else pure ({ s with lo, ref, hi }, nRight, false)
  else pure (s, nRight, false)

/-- eccDefinitionUsingFrequencyFits.py 639-934: one pass of the loop: a new state or the result. -/
def nearBody (lib : FitsLib K) (cfg : FitsCfg K) (d : FitsData K) (t0 : K) (sign tol : K) (bounds : Trend K × Trend K)
    (nBefore nAfter : ℕ) (distance : ℤ) (prominence : K) (s : NearState K) : Py (NearState K ⊕ Near K) := do
  let it := s.it + 1
  let r ← residual lib d t0 s.p s.lo s.hi
  -- 646: `max(data_residual)` raises on an empty interval
  let _ ← npMax r
  let peaks ← lib.findPeaks (r.map (sign * ·)) distance prominence
  let idx := peaks.map (· + s.lo)
  let nLeft := (idx.filter (· < s.ref)).length
  let nRight := (idx.filter (· ≥ s.ref)).length
  let raw ← idx.mapM fun i => pyGet d.phase i
  let adv := if 2 ≤ idx.length then (raw.getLastD 0 - raw.headD 0) / (4 * lib.pi * ((idx.length : K) - 1)) else s.adv
  let info ← extremaInfo lib cfg d t0 s.p idx
  let short := if nRight < nAfter then s.short + 1 else s.short
  if idx.length = 0 ∨ it > 20 then pure (.inr ⟨idx, s.p, adv, s.ref, info⟩)
  else do
    let (s', nRight', again) ← adjust lib d idx nBefore nAfter nLeft nRight adv { s with it, short, adv }
    if again then pure (.inl s')
    else
      let data := info.map fun x => x.2.1
      let delta := if idx.length ≠ s'.old.length then none
        else some ((List.zipWith (fun a b => |a - b|) data s'.old).foldl max 0)
      if (it ≥ 16 ∧ nLeft = nBefore ∧ nRight' = nAfter ∧ s'.changedOn = some (it - 1)) ∨
          (short ≥ 5 ∨ idx.length < 5 ∨ it > 20) ∨ (∃ x, delta = some x ∧ x < tol) then
        pure (.inr ⟨idx, s'.p, adv, s'.ref, info⟩)
      else do
        let p ← fitTrend lib t0 (info.map Prod.fst) data s'.p bounds.1 bounds.2
        pure (.inl { s' with p, old := data })

/-- The loop of `FindExtremaNearIdxRef` as a step. -/
def nearStep (lib : FitsLib K) (cfg : FitsCfg K) (d : FitsData K) (t0 : K) (sign tol : K) (bounds : Trend K × Trend K)
    (nBefore nAfter : ℕ) (distance : ℤ) (prominence : K) (s : NearState K) : NearState K ⊕ Py (Near K) :=
  match nearBody lib cfg d t0 sign tol bounds nBefore nAfter distance prominence s with
  | .error e => .inr (.error e)
  | .ok (.inl s') => .inl s'
  | .ok (.inr r) => .inr (.ok r)

/-- eccDefinitionUsingFrequencyFits.py 484-935 `FindExtremaNearIdxRef`, its loop run for at most `fuel` passes. -/
def findNear [FloorRing K] (fuel : ℕ) (lib : FitsLib K) (cfg : FitsCfg K) (d : FitsData K) (t0 : K) (sign tol : K)
    (bounds : Trend K × Trend K) (nBefore nAfter : ℕ) (ref : ℕ) (adv : K) (p : Trend K) : Option (Py (Near K)) :=
  let start : Py (NearState K × ℤ × K) := do
    let ph ← pyGet d.phase ref
    let width := 42 / 10 * lib.pi * adv
    let lo ← argmaxTrue (fun x => decide (x > ph - width * nBefore)) d.phase
    let h ← argmaxTrue (fun x => decide (x > ph + width * nAfter)) d.phase
    let hi := if h = 0 then d.phase.length else h
    let (distance, prominence) ← distanceProminence lib cfg d t0 p lo hi
    pure (⟨0, lo, hi, ref, adv, p, List.replicate (nBefore + nAfter) 0, none, 0, none⟩, distance, prominence)
  match start with
  | .error e => some (.error e)
  | .ok (s, distance, prominence) =>
    runLoop (nearStep lib cfg d t0 sign tol bounds nBefore nAfter distance prominence) fuel s

/-- State of the loop of `find_extrema`.  Times, data and phases at the extrema are kept as triples. -/
structure FindState (K : Type) where
  count : ℕ
  ref : ℕ
  adv : K
  p : Trend K
  extrema : List ℕ
  info : List (K × K × K)
  extra : List ℕ
  extraInfo : List (K × K × K)

/-- What `find_extrema` returns and stores (`periastron_info` or `apastron_info`). -/
structure Found (K : Type) where
  extrema : List ℕ
  info : List (K × K × K)

/-- eccDefinitionUsingFrequencyFits.py 353-419: what is reported from one local search.  The last entry is `terminate`. -/
def report (N : ℕ) (r : Near K) (s : FindState K) : Py (FindState K × Bool) := do
  let terminate ← (if r.idx.length < 2 * N + 1 then pure true else do
    let x ← pyGet r.idx N
    pure (decide (x < r.ref)))
  if r.idx.length ≥ 2 * N - 1 then do
    -- 364-371
    let s ← (if s.count = 1 then do
        let first ← (List.range N).mapM fun k => pyGet r.idx k
        let firstInfo ← (List.range N).mapM fun k => pyGet r.info k
        pure { s with extrema := s.extrema ++ first, info := s.info ++ firstInfo }
      else pure s)
    -- 372-390
    let x ← pyGet r.idx N
    let s ← (if x > r.ref then do
        let i ← pyGet r.info N
        pure { s with extrema := s.extrema ++ [x], info := s.info ++ [i], extra := r.idx.drop (N + 1),
                      extraInfo := r.info.drop (N + 1) }
      else pure s)
    -- 392-401
    if terminate then
      let more := ((r.idx.zip r.info).drop (N + 1)).filter fun q => decide (q.1 > r.ref)
      pure ({ s with extrema := s.extrema ++ more.map Prod.fst, info := s.info ++ more.map Prod.snd }, true)
    else pure (s, false)
  else
    -- 402-419; here `terminate` always holds
    pure ({ s with extrema := s.extrema ++ s.extra, info := s.info ++ s.extraInfo }, terminate)

/-- eccDefinitionUsingFrequencyFits.py 430: safety limit on the number of passes. -/
def passLimit : ℕ := 10000

/-- eccDefinitionUsingFrequencyFits.py 332-436: one pass of the loop of `find_extrema`; `near` is the local search, `limit`
is `passLimit` in the code. -/
def findBody (limit : ℕ) (near : ℕ → K → Trend K → Option (Py (Near K))) (N : ℕ) (s : FindState K) :
    FindState K ⊕ Option (Py (Found K)) :=
  let s := { s with count := s.count + 1 }
  match near s.ref s.adv s.p with
  | none => .inr none
  | some (.error e) => .inr (some (.error e))
  | some (.ok r) =>
    match report N r s with
    | .error e => .inr (some (.error e))
    | .ok (s', true) => .inr (some (.ok ⟨s'.extrema, s'.info⟩))
    | .ok (s', false) =>
      -- 428
      match pyGet r.idx N, pyGet r.idx (N + 1) with
      | .ok a, .ok b =>
        -- 430-436
        if s'.count > limit then .inr (some (.error .exception))
        else .inl { s' with ref := (a + b) / 2, adv := r.adv, p := r.p }
      | _, _ => .inr (some (.error .indexError))

/-- eccDefinitionUsingFrequencyFits.py 219-244: end of the data used for the global fit, centre time, start and bounds.
A centre time 0 divides by zero (numpy: inf or nan, rejected by scipy). -/
def globalSetup (lib : FitsLib K) (cfg : FitsCfg K) (d : FitsData K) : Py (List K × List K × K × Trend K × Trend K × Trend K) := do
  let ph0 ← pyGet d.phase 0
  let e ← argmaxTrue (fun x => decide (x > ph0 + cfg.numGlobal * 4 * lib.pi)) d.phase
  let stop : ℤ := if e = 0 then -1 else (e : ℤ)
  let a ← pyGet d.t 0
  let b ← pyLast d.t
  let t0 := 1 / 2 * (a + b)
  let da ← pyGet d.data 0
  let db ← (if e = 0 then pyLast d.data else pyGet d.data e)
  let f0 := 1 / 2 * (da + db)
  if t0 = 0 then .error .valueError
  else pure (pySlice d.t 0 stop, pySlice d.data 0 stop, t0, ⟨f0, -cfg.nPN * f0 / (-t0), 0⟩, ⟨0, 0, 8 / 10 * b⟩,
    ⟨cfg.maxAmpFactor * f0, cfg.maxNPNFactor * f0 / (-t0), -t0⟩)

/-- eccDefinitionUsingFrequencyFits.py 160-454 `find_extrema` (the shift of the times by the merger time, 185 and 453, is in
`Model/Heap.lean`); `sign` is 1 for pericenters and -1 for apocenters, `limit` is `passLimit`. -/
def findExtrema [FloorRing K] (limit fuel : ℕ) (lib : FitsLib K) (cfg : FitsCfg K) (d : FitsData K) (sign : K) :
    Option (Py (Found K)) :=
  let start : Py (K × (Trend K × Trend K) × FindState K) := do
    let (ts, ds, t0, p0, lo, hi) ← globalSetup lib cfg d
    let p ← fitTrend lib t0 ts ds p0 lo hi
    let adv : K := 11 / 10
    let ph0 ← pyGet d.phase 0
    let ref ← argmaxTrue (fun x => decide (x > ph0 + adv * ((cfg.N : K) - 1) * 4 * lib.pi)) d.phase
    if ref = 0 then .error .exception
    else pure (t0, (lo, hi), ⟨0, ref, adv, p, [], [], [], []⟩)
  match start with
  | .error e => some (.error e)
  | .ok (t0, bounds, s) =>
    (runLoop (findBody limit (findNear fuel lib cfg d t0 sign (1 / 10 ^ 8) bounds cfg.N (cfg.N + 1)) cfg.N) fuel s).join

end fits

end GwEcc
