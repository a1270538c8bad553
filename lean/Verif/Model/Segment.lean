import Verif.Model.DataDict
import Verif.Model.Extrema
import Mathlib.Algebra.Order.Floor.Defs

/-!
# Model of the selection of a short segment and of the residual data

Python source: `gw_eccentricity/eccDefinition.py` 506-520 (option `use_only_these_many_orbits`), 1914-2135 (choice of the
segment) and 2890-2944 (residual amplitude and frequency).
-/

namespace GwEcc

section segment

variable {K : Type} [Field K] [LinearOrder K]

/-- `np.searchsorted(arr, v)` for an increasing array: the number of entries smaller than `v`. -/
def searchSorted (l : List K) (v : K) : ℕ := (l.takeWhile (· < v)).length

/-- eccDefinition.py 2093-2094: GW phase counted as one orbit, `4 * k * np.pi` with `k = 1.1`. -/
def fourPiK (pi : K) : K := 4 * (11 / 10) * pi

/-- eccDefinition.py 2070-2089 `_compute_additional_orbits`: from the number of orbits available on the side where the
waveform ends (2084, 2087). -/
def additionalOrbits (n available between : K) : K := max (1 / 2 * n - available - between) 0

/-- eccDefinition.py 2091-2129 `_get_segment_indices`: start, and end as a Python index (`-1` when there are not enough
samples on the right). -/
def segmentIndices [FloorRing K] (pi n : K) (phase : List K) (phaseLeft phaseRight : K) : Py (ℕ × ℤ) := do
  let F := fourPiK pi
  let between := (phaseRight - phaseLeft) / F
  let width := (⌈n / 2⌉ : K) * F
  let start := searchSorted phase (phaseLeft - width) - 1
  let add ← (if start = 0 then do
      let p0 ← pyGet phase 0
      pure (additionalOrbits n ((phaseLeft - p0) / F) between)
    else pure 0)
  match npWhere (fun x => decide (phaseRight + width + add * F ≤ x)) phase with
  | stop :: _ => pure (start, (stop : ℤ))
  | [] => do
    let pN ← pyLast phase
    let add := additionalOrbits n ((pN - phaseRight) / F) between
    match npWhere (fun x => decide (phaseLeft - width - add * F ≤ x)) phase with
    | s :: _ => pure (s, -1)
    | [] => pure (0, -1)

/-- The waveform quantities of the object: `self.t, self.amp_gw, self.phase_gw, self.omega_gw`. -/
structure Wave (K : Type) where
  t : List K
  amp : List K
  phase : List K
  omega : List K
  deriving DecidableEq, Repr

/-- eccDefinition.py 1943-1965: the crossings of the reference frequency. -/
def crossings (omega : List K) (omegaRef : K) : Py (ℕ × ℕ) :=
  let left := npWhere (fun x => decide (omegaRef ≤ x)) omega
  let right := npWhere (fun x => decide (x ≤ omegaRef)) omega
  match left, right.getLast? with
  | l :: _, none => .ok (l, l)
  | [], none => .error .indexError
  | [], some r => .ok (r, r)
  | l :: _, some r => .ok (l, r)

/-- eccDefinition.py 1914-1991 `get_approximate_tref_for_fref_using_secular_trend`.  `fit times omegas` is the fitted trend
at the given times (`QusicircularFitForMappingFrequencyToTime`, scipy's least squares).  Thinning out of long data
(1981-1984) is `everyNth`. -/
def everyNth {α : Type} (step : ℕ) (l : List α) : List α :=
  (List.range l.length).filterMap fun i => if i % step = 0 then l[i]? else none

/-- see `everyNth` -/
def approxTref (pi : K) (fit : List K → List K → Py (List K)) (w : Wave K) (fref : K) : Py K := do
  let omegaRef := 2 * pi * fref
  let (left, right) ← crossings w.omega omegaRef
  let pl ← pyGet w.phase left
  let pr ← pyGet w.phase right
  let (left, right) : ℤ × ℤ :=
    if (pr - pl) / (4 * pi) < 5 then
      let li := npWhere (fun x => decide (pl - 5 / 2 * 4 * pi ≤ x)) w.phase
      let ri := npWhere (fun x => decide (pr + 5 / 2 * 4 * pi ≤ x)) w.phase
      (if 1 < li.length then ((li.headD 0 : ℕ) : ℤ) else 0, if 1 < ri.length then ((ri.headD 0 : ℕ) : ℤ) else -1)
    else ((left : ℤ), (right : ℤ))
  let time := pySlice w.t left right
  let omega := pySlice w.omega left right
  let step := time.length / 1000
  let (time, omega) := if 1000 ≤ time.length then (everyNth step time, everyNth step omega) else (time, omega)
  let trend ← fit time omega
  let idx ← argmin (trend.map fun x => |x - omegaRef|)
  pyGet time idx

/-- eccDefinition.py 2050-2062 `_get_reference_bounds`. -/
def referenceBounds (pi : K) (fit : List K → List K → Py (List K)) (w : Wave K) (domain : Domain) (refs : List K) :
    Py (K × K) :=
  match domain with
  | .time => do
    let a ← pyGet refs 0
    let b ← pyLast refs
    pure (a, b)
  | .frequency => do
    let a ← pyGet refs 0
    let tl ← approxTref pi fit w a
    if 1 < refs.length then do
      let b ← pyLast refs
      let tr ← approxTref pi fit w b
      pure (tl, tr)
    else pure (tl, tl)

/-- eccDefinition.py 2064-2068 `_get_phase_bounds`, for one time. -/
def phaseNear (w : Wave K) (x : K) : Py K := do
  let i ← argmin (w.t.map fun y => |y - x|)
  pyGet w.phase i

/-- eccDefinition.py 2131-2135 `_update_waveform_data_segment`. -/
def Wave.slice (w : Wave K) (start : ℕ) (stop : ℤ) : Wave K :=
  ⟨pySlice w.t start stop, pySlice w.amp start stop, pySlice w.phase start stop, pySlice w.omega start stop⟩

/-- eccDefinition.py 1993-2048 `get_amp_phase_omega_gw_segments`, without plots. -/
def useSegment [FloorRing K] (pi : K) (fit : List K → List K → Py (List K)) (n : K) (domain : Domain) (refs : List K)
    (w : Wave K) : Py (Wave K) := do
  let (tl, tr) ← referenceBounds pi fit w domain refs
  let pl ← phaseNear w tl
  let pr ← phaseNear w tr
  let (start, stop) ← segmentIndices pi n w.phase pl pr
  pure (w.slice start stop)

/-- eccDefinition.py 507-520: the waveform that is used.  `none` and 0 mean all of it; so does asking for more orbits than
there are. -/
def selectWave [FloorRing K] (pi : K) (fit : List K → List K → Py (List K)) (orbits : Option K) (domain : Domain)
    (refs : List K) (w : Wave K) : Py (Wave K) :=
  match orbits with
  | none => .ok w
  | some n =>
    if n = 0 then .ok w
    else do
      let pN ← pyLast w.phase
      let p0 ← pyGet w.phase 0
      if n ≤ (pN - p0) / (4 * pi) then useSegment pi fit n domain refs w else .ok w

/-! ### Residual data -/

/-- What `compute_res_amp_gw_and_res_omega_gw` stores. -/
structure Residual (K : Type) where
  tMergerZ : K
  resAmp : List K
  resOmega : List K
  deriving DecidableEq

/-- `np.allclose(l, x)` with numpy's default tolerances. -/
def allClose (l : List K) (x : K) : Bool := l.all fun a => decide (|a - x| ≤ 1 / 10 ^ 8 + 1 / 10 ^ 5 * |x|)

/-- eccDefinition.py 450-455 and 2893-2898: equal time steps are required. -/
def checkSteps (t : List K) : Py Unit := do
  let d0 ← pyGet (diff t) 0
  if allClose (diff t) d0 then pure () else .error .exception

/-- eccDefinition.py 2905-2944, from the arrays of the quasicircular waveform: times, amplitude, frequency and total
amplitude of all modes. -/
def residualCore (tol : K) (eval : InterpCall → List K → List K → K → Py K) (kw : SplineKwargs) (tMerger : K) (w : Wave K)
    (tZ ampZ omegaZ totalZ : List K) : Py (Residual K) := do
  let (tm, _) ← peakTime tZ totalZ
  let shifted := tZ.map fun x => x - tm + tMerger
  let s0 ← pyGet shifted 0
  let t0 ← pyGet w.t 0
  if t0 < s0 then .error .exception
  else do
    let sN ← pyLast shifted
    if sN < tMerger then .error .exception
    else do
      let a ← interpolate tol eval w.t shifted ampZ true .spline kw true
      let ra ← npZip (· - ·) w.amp a
      let o ← interpolate tol eval w.t shifted omegaZ true .spline kw true
      let ro ← npZip (· - ·) w.omega o
      pure ⟨tm, ra, ro⟩

/-- eccDefinition.py 594-595 and 2890-2944 `compute_res_amp_gw_and_res_omega_gw`: nothing is computed unless
quasicircular amplitudes and frequencies are in the data. -/
def residualData {C : Type} (lib : WaveLib K C) (tol : K) (eval : InterpCall → List K → List K → K → Py K)
    (kw : SplineKwargs) (precessing : Bool) (v : DataV K C) (tMerger : K) (w : Wave K) : Py (Option (Residual K)) :=
  if v.has "amplm_zeroecc" && v.has "omegalm_zeroecc" then do
    let tZ ← getArr v "t_zeroecc"
    checkSteps tZ
    let (ampZ, _, omegaZ) ← gwQuantities precessing v "_zeroecc"
    let a ← getR v "amplm_zeroecc"
    let totalZ ← lib.totalAmp (a.map Prod.snd)
    let r ← residualCore tol eval kw tMerger w tZ ampZ omegaZ totalZ
    pure (some r)
  else pure none

end segment

end GwEcc
