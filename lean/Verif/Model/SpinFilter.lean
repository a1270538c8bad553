import Verif.Model.Segment
import Verif.Model.Measure
import Verif.Loop

/-!
# Model of the filter of spin-induced oscillations

Python source: `gw_eccentricity/spin_filter.py` (all functions except plots and printed output) and its use in
`gw_eccentricity/eccDefinition.py` 463-500.

Parameters: the fit of the post-Newtonian trend, scipy's peak finder and cubic interpolation, the window functions and the
Fourier transforms.  The only data tag used by the package is `""`.  The data types `"amp"` and `"omega"` are an enumeration,
so the checks that reject other strings (123-127, 179-181, 452-476) are not modelled.
-/

namespace GwEcc.Filter

open GwEcc

section filter

variable {K : Type} [Field K] [LinearOrder K]

/-- Data types. -/
inductive Kind
  | amp
  | omega
  deriving DecidableEq

/-- `np.sign`. -/
def sgn (x : K) : ℤ := if x < 0 then -1 else if x = 0 then 0 else 1

/-- spin_filter.py 16-46 `_find_intersection_points`: crossing times, their midpoints and distances. -/
def intersections (t x y : List K) : Py (List K × List K × List K) := do
  let d ← npZip (· - ·) x y
  let changes := npWhere (fun s => decide (s ≠ 0)) (diff (d.map sgn))
  if changes.length < 2 then .error .valueError
  else do
    let tc ← changes.mapM fun (i : ℕ) => pyGet t i
    pure (tc, List.zipWith (fun a b => 1 / 2 * (a + b)) tc.dropLast tc.tail, diff tc)

/-- Options (spin_filter.py 824-839); `padding` is a natural number, `debugLevel` one of the levels of `debug_message`. -/
structure FilterCfg (K : Type) where
  threshold : K
  alpha : K
  segmentSize : K
  kindForCheck : Option Kind
  kindForSpin : Option Kind
  debugLevel : ℤ
  doNotFilter : Bool
  padding : ℕ
  taper : K
  spinLo : K
  spinHi : K
  eccLo : K
  eccHi : K

/-- Numerical libraries. -/
structure FilterLib (K : Type) where
  pi : K
  cos : K → K
  /-- 97-143 `_pn_fit_for_secular_trend`: times, data, data type and merger time to the fitted function -/
  fit : List K → List K → Kind → K → Py (K → K)
  /-- `find_peaks(data, distance)` -/
  peaks : List K → ℤ → Py (List ℕ)
  /-- `interp1d(x, y, kind='cubic', fill_value='extrapolate')` -/
  cubic : List K → List K → Py (K → K)
  /-- `|rfft(data)| / len(data)` -/
  spectrum : List K → List K
  /-- `irfft(rfft(data) * mask, n=len(data))` -/
  lowpass : List K → List K → List K
  /-- `np.hamming` -/
  hamming : ℕ → List K
  /-- `np.hanning` -/
  hanning : ℕ → List K

/-- `np.mean`; nothing (nan) for no values. -/
def mean? (l : List K) : Option K := if l = [] then none else some (l.sum / l.length)

/-- `ma / mr > threshold` for numpy floats: division by zero gives an infinity with the sign of `ma`, or nan. -/
def ratioAbove (ma mr threshold : K) : Bool := if mr = 0 then decide (0 < ma) else decide (ma / mr > threshold)

/-- spin_filter.py 145-222 `check_filter_requirement`.  Equal first times make `int` raise. -/
def checkRequirement [FloorRing K] (lib : FilterLib K) (threshold tMerger : K) (kind : Kind) (t d22 d2m : List K) : Py Bool := do
  let s : K := match kind with
    | .amp => 1
    | .omega => -1
  let asym ← npZip (fun x y => 1 / 2 * (x - s * y)) d22 d2m
  let trend ← lib.fit t d22 kind tMerger
  let residual ← npZip (· - ·) d22 (t.map trend)
  let (_, _, dT) ← intersections t d22 (d2m.map (s * ·))
  let last ← pyLast dT
  let t1 ← pyGet t 1
  let t0 ← pyGet t 0
  if t1 - t0 = 0 then .error .valueError
  else do
    let distance := pyInt (2 * last / (t1 - t0))
    let rp ← lib.peaks residual distance
    let ap ← lib.peaks asym distance
    let rv ← rp.mapM fun (i : ℕ) => pyGet residual i
    let av ← ap.mapM fun (i : ℕ) => pyGet asym i
    match mean? av, mean? rv with
    | some ma, some mr => pure (ratioAbove ma mr threshold)
    | _, _ => pure false

/-- `freqs[mask][best(spectrum[mask])]` with the mask `lo <= freqs <= hi`; nothing if no frequency is in the window. -/
def pickBy (best : List K → Py ℕ) (freqs spectrum : List K) (lo hi : K) : Option K :=
  let sel := (freqs.zip spectrum).filter fun q => decide (lo ≤ q.1) && decide (q.1 ≤ hi)
  match best (sel.map Prod.snd) with
  | .ok i => (sel[i]?).map Prod.fst
  | .error _ => none

/-- spin_filter.py 242-342 `_get_fcut_fecc_fspin` on a given spectrum: `f_cutoff`, `f_ecc`, `f_spin`. -/
def detect (freqs spectrum : List K) (guess spinLo spinHi eccLo eccHi : K) : K × K × K :=
  let fSpin := (pickBy argmax freqs spectrum (spinLo * guess) (spinHi * guess)).getD guess
  let fEcc := (pickBy argmax freqs spectrum (eccLo * fSpin) (eccHi * fSpin)).getD (fSpin / (5 / 2))
  let fCut := (pickBy argmin freqs spectrum fEcc fSpin).getD (1 / 2 * (fSpin + fEcc))
  (fCut, fEcc, fSpin)

/-- spin_filter.py 345-377 `_make_lowpass_mask` at one frequency; nothing stands for nan (0/0 when the taper has no width). -/
def maskAt (pi : K) (cos : K → K) (fCut taper f : K) : Option K :=
  let lo := fCut * (1 - taper)
  let hi := fCut * (1 + taper)
  if f > hi then some 0
  else if lo ≤ f ∧ f ≤ hi then
    if hi - lo = 0 then none else some (1 / 2 * (1 + cos (pi * (f - lo) / (hi - lo))))
  else some 1

/-- The mask on a list of frequencies. -/
def lowpassMask (pi : K) (cos : K → K) (fCut taper : K) (freqs : List K) : List (Option K) :=
  freqs.map (maskAt pi cos fCut taper)

/-- `np.fft.rfftfreq(n, d)`. -/
def rfftfreq (n : ℕ) (d : K) : List K := (List.range (n / 2 + 1)).map fun (k : ℕ) => (k : K) / (n * d)

/-- `np.pad(l, (p, p))` with zeros. -/
def pad (p : ℕ) (l : List K) : List K := List.replicate p 0 ++ l ++ List.replicate p 0

/-- `np.searchsorted(l, v, side='right')`. -/
def searchRight (l : List K) (v : K) : ℕ := (l.takeWhile (· ≤ v)).length

/-- What the filter object holds once filtering is required (spin_filter.py 479-524). -/
structure FilterObj (K : Type) where
  t : List K
  data : List K
  kind : Kind
  tMerger : K
  /-- `delta_T_interp` -/
  dT : K → K

/-- spin_filter.py 526-542 `_make_segment`. -/
def makeSegment (cfg : FilterCfg K) (o : FilterObj K) (tMid : K) : Py (List K × List K) := do
  let half := 1 / 2 * cfg.segmentSize * o.dT tMid
  let first ← pyGet o.t 0
  let last ← pyLast o.t
  let i := searchSorted o.t (max first (tMid - half))
  let j := min (searchRight o.t (min last (tMid + half))) o.t.length
  pure ((o.t.take j).drop i, (o.data.take j).drop i)

/-- The fields of `FilterSegmentResult` (spin_filter.py 225-240) used later. -/
structure Segment (K : Type) where
  t : List K
  filtered : List K
  deriving DecidableEq

/-- spin_filter.py 555-601 `_filter_segment`.  A mask containing nan (which makes the whole result nan) is treated as an
exception; so are equal first times of the segment (infinite frequencies). -/
def filterSegment (lib : FilterLib K) (cfg : FilterCfg K) (o : FilterObj K) (tMid : K) : Py (Segment K) := do
  let (ts, ds) ← makeSegment cfg o tMid
  let guess := 1 / o.dT tMid
  let trend ← lib.fit ts ds o.kind o.tMerger
  let secular := ts.map trend
  let residual ← npZip (· - ·) ds secular
  let windowed ← npZip (· * ·) (lib.hamming residual.length) residual
  let withWindow := pad cfg.padding windowed
  let noWindow := pad cfg.padding residual
  let t1 ← pyGet ts 1
  let t0 ← pyGet ts 0
  if t1 - t0 = 0 then .error .zeroDivisionError
  else do
    let (fCut, _, _) := detect (rfftfreq withWindow.length (t1 - t0)) (lib.spectrum withWindow) guess cfg.spinLo cfg.spinHi
      cfg.eccLo cfg.eccHi
    match (lowpassMask lib.pi lib.cos fCut cfg.taper (rfftfreq noWindow.length (t1 - t0))).mapM id with
    | none => .error .valueError
    | some mask => do
      let smooth := pySlice (lib.lowpass noWindow mask) cfg.padding (-(cfg.padding : ℤ))
      let filtered ← npZip (· + ·) secular smooth
      pure ⟨ts, filtered⟩

/-- `full[start:start+len(vals)] += vals`. -/
def addAt (full : List K) (start : ℕ) (vals : List K) : List K :=
  full.mapIdx fun i x => if start ≤ i then x + (vals[i - start]?).getD 0 else x

/-- spin_filter.py 614-624: one pass of the loop over the segments. -/
def accumulate (hanning : ℕ → List K) (t : List K) (acc : List K × List K) (s : Segment K) : Py (List K × List K) := do
  let first ← pyGet s.t 0
  let start := searchSorted t first
  let stop := min (start + s.filtered.length) t.length
  let n := stop - start
  let w := hanning n
  let y ← npZip (· * ·) (s.filtered.take n) w
  pure (addAt acc.1 start y, addAt acc.2 start w)

/-- spin_filter.py 603-633 `_combine_segments`. -/
def combine (hanning : ℕ → List K) (t : List K) (segments : List (Segment K)) : Py (List K) := do
  let zeros := List.replicate t.length 0
  let (y, w) ← segments.foldlM (accumulate hanning t) (zeros, zeros)
  let nodes := ((t.zip (y.zip w)).filter fun q => decide (0 < q.2.2)).map fun q => (q.1, q.2.1 / q.2.2)
  (t.zip (y.zip w)).mapM fun q => if 0 < q.2.2 then pure (q.2.1 / q.2.2) else npInterp q.1 nodes

/-- spin_filter.py 647-656: one pass of the loop over segment centres; the state is the centre and the segments so far. -/
def segmentStep (lib : FilterLib K) (cfg : FilterCfg K) (o : FilterObj K) (last : K) (s : K × List (Segment K)) :
    (K × List (Segment K)) ⊕ Py (List (Segment K)) :=
  if s.1 < last then
    match filterSegment lib cfg o s.1 with
    | .error e => .inr (.error e)
    | .ok r => .inl (s.1 + cfg.alpha * o.dT s.1, s.2 ++ [r])
  else .inr (.ok s.2)

/-- spin_filter.py 643-656: the segments. -/
def segments (fuel : ℕ) (lib : FilterLib K) (cfg : FilterCfg K) (o : FilterObj K) : Option (Py (List (Segment K))) :=
  match pyGet o.t 0, pyLast o.t with
  | .ok first, .ok last => runLoop (segmentStep lib cfg o last) fuel (first, [])
  | _, _ => some (.error .indexError)

/-- spin_filter.py 635-668 `apply_filter`. -/
def applyFilter (fuel : ℕ) (lib : FilterLib K) (cfg : FilterCfg K) (o : FilterObj K) : Option (Py (List K)) :=
  (segments fuel lib cfg o).map fun r => do
    let segs ← r
    combine lib.hanning o.t segs

/-- Amplitude, frequency and phase of the modes (2, 2) and (2, -2) in the coprecessing frame. -/
structure CoprModes (K : Type) where
  t : List K
  amp22 : List K
  amp2m2 : List K
  omega22 : List K
  omega2m2 : List K
  phase22 : List K
  phase2m2 : List K

/-- `data_dict[kind + "lm"][(2, 2)]` and `[(2, -2)]`. -/
def CoprModes.get (m : CoprModes K) : Kind → List K × List K
  | .amp => (m.amp22, m.amp2m2)
  | .omega => (m.omega22, m.omega2m2)

/-- Sign with which the modes of a data type are combined. -/
def Kind.sign : Kind → K
  | .amp => 1
  | .omega => -1

/-- spin_filter.py 479-488: the unfiltered data. -/
def original (m : CoprModes K) (kind : Kind) : Py (List K) :=
  npZip (fun x y => 1 / 2 * (x + kind.sign * y)) (m.get kind).1 (m.get kind).2

/-- spin_filter.py 395-524 `FilterSpinInducedOscillations.__init__`: the unfiltered data, and the object if filtering is
required. -/
def makeFilter [FloorRing K] (lib : FilterLib K) (cfg : FilterCfg K) (tMerger : K) (m : CoprModes K) (kind : Kind) :
    Py (List K × Option (FilterObj K)) := do
  let data ← original m kind
  let check := cfg.kindForCheck.getD kind
  let required ← checkRequirement lib cfg.threshold tMerger check m.t (m.get check).1 (m.get check).2
  if !required then pure (data, none)
  else do
    let spin := cfg.kindForSpin.getD kind
    let (tc, tMid, dT) ← intersections m.t (m.get spin).1 ((m.get spin).2.map (spin.sign * ·))
    if 100 < tc.length then do
      let _ ← debugMessage cfg.debugLevel
      let f ← lib.cubic tMid dT
      pure (data, some ⟨m.t, data, kind, tMerger, f⟩)
    else do
      let f ← lib.cubic tMid dT
      pure (data, some ⟨m.t, data, kind, tMerger, f⟩)

/-- Entries `x`, `x_original` and `x_filtered` of the result for one quantity. -/
structure Best (K : Type) where
  best : List K
  original : List K
  filtered : Option (List K)
  deriving DecidableEq

/-- spin_filter.py 883-936: one data type. -/
def filterKind [FloorRing K] (fuel : ℕ) (lib : FilterLib K) (cfg : FilterCfg K) (tMerger : K) (m : CoprModes K) (kind : Kind) :
    Option (Py (Best K)) :=
  match makeFilter lib cfg tMerger m kind with
  | .error e => some (.error e)
  | .ok (data, none) => some (.ok ⟨data, data, none⟩)
  | .ok (data, some o) =>
    if cfg.doNotFilter then
      some (do
        let _ ← debugMessage cfg.debugLevel
        pure ⟨data, data, none⟩)
    else (applyFilter fuel lib cfg o).map fun r => do
      let f ← r
      pure ⟨f, data, some f⟩

/-- `np.cumsum`. -/
def cumsum (l : List K) : List K := (List.range l.length).map fun i => (l.take (i + 1)).sum

/-- What the measurement receives. -/
structure FilterOut (K : Type) where
  amp : Best K
  omega : Best K
  phase : Best K
  deriving DecidableEq

/-- spin_filter.py 938-953: the phase, from the filtered frequency if there is one. -/
def filterPhase (m : CoprModes K) (omega : Best K) : Py (Best K) := do
  let p ← npZip (fun x y => 1 / 2 * (x - y)) m.phase22 m.phase2m2
  match omega.filtered with
  | some w => do
    let t1 ← pyGet m.t 1
    let t0 ← pyGet m.t 0
    let q := (cumsum w).map (· * (t1 - t0))
    pure ⟨q, p, some q⟩
  | none => pure ⟨p, p, none⟩

/-- spin_filter.py 841-955 `check_and_filter_spin_induced_oscillations`; eccDefinition.py 490-498 stores the entries as
attributes, replacing the amplitude, the phase and the frequency used for the measurement. -/
def checkAndFilter [FloorRing K] (fuel : ℕ) (lib : FilterLib K) (cfg : FilterCfg K) (tMerger : K) (m : CoprModes K) :
    Option (Py (FilterOut K)) :=
  match filterKind fuel lib cfg tMerger m .amp with
  | none => none
  | some (.error e) => some (.error e)
  | some (.ok a) =>
    match filterKind fuel lib cfg tMerger m .omega with
    | none => none
    | some (.error e) => some (.error e)
    | some (.ok w) => some (do
      let p ← filterPhase m w
      pure ⟨a, w, p⟩)

end filter

end GwEcc.Filter
