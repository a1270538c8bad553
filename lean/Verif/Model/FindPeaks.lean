import Verif.Model.Construct

/-!
# Model of `scipy.signal.find_peaks`

The code calls it at eccDefinitionUsingAmplitude.py 57-59 (methods Amplitude, Frequency, ResidualAmplitude and
ResidualFrequency, with the user's `extrema_finding_kwargs`), eccDefinitionUsingFrequencyFits.py 660-663 (methods based on fits,
with `distance` and `prominence`) and spin_filter.py 192-193 (with `distance`).  In the rest of the model it is a parameter
(`Libs.peaks`, `FitsLib.findPeaks`, `FilterLib.peaks`); here is what scipy does, so that what the theorems assume of that
parameter can be proved of it.  Source: scipy, `signal/_peak_finding.py` and `signal/_peak_finding_utils.pyx`.  Data are finite
numbers.  Conditions given by arrays (one value for each peak) are not modelled.
-/

namespace GwEcc

section
variable {K : Type} [Field K] [LinearOrder K]

/-! ### `_local_maxima_1d` -/

/-- The inner loop: the first sample from `j` on that differs from sample `i`, or the last sample.  The first argument bounds
the number of steps. -/
def pastPlateau (x : List K) (i : ℕ) : ℕ → ℕ → ℕ
  | 0, j => j
  | n + 1, j => if j < x.length - 1 ∧ x.getD j 0 = x.getD i 0 then pastPlateau x i n (j + 1) else j

/-- The outer loop from sample `i` on: the first and last samples of the plateaus that are maxima. -/
def plateausFrom (x : List K) : ℕ → ℕ → List (ℕ × ℕ)
  | 0, _ => []
  | n + 1, i =>
    if i < x.length - 1 then
      if x.getD (i - 1) 0 < x.getD i 0 then
        let j := pastPlateau x i x.length (i + 1)
        if x.getD j 0 < x.getD i 0 then (i, j - 1) :: plateausFrom x n (j + 1) else plateausFrom x n (i + 1)
      else plateausFrom x n (i + 1)
    else []

/-- `_local_maxima_1d(x)`: left and right edges of the maxima.  The first and the last sample cannot be maxima. -/
def plateaus (x : List K) : List (ℕ × ℕ) := plateausFrom x x.length 1

/-- The sample reported for a plateau. -/
def middle (p : ℕ × ℕ) : ℕ := (p.1 + p.2) / 2

/-! ### `_peak_prominences` and `_peak_widths` -/

/-- Samples from the peak `p` on away from it, to the left (starting with the peak), at most `n` steps. -/
def leftOf (x : List K) (p n : ℕ) : List K := ((x.take (p + 1)).reverse).take (n + 1)

/-- The same to the right. -/
def rightOf (x : List K) (p n : ℕ) : List K := (x.drop p).take (n + 1)

/-- Walk away from a peak of height `h` while samples are not higher: the smallest value met and how many steps away it was
met first. -/
def base (h : K) : List K → ℕ → K × ℕ → K × ℕ
  | [], _, best => best
  | y :: ys, k, best => if y ≤ h then base h ys (k + 1) (if y < best.1 then (y, k) else best) else best

/-- `wlen` as a number of steps to each side; without it there is no limit. -/
def reach (x : List K) : Option ℕ → ℕ
  | none => x.length
  | some w => if 2 ≤ w then w / 2 else x.length

/-- The base to the left: its value, and how many steps away it is. -/
def leftBase (x : List K) (wlen : Option ℕ) (p : ℕ) : K × ℕ :=
  base (x.getD p 0) (leftOf x p (reach x wlen)) 0 (x.getD p 0, 0)

/-- The base to the right. -/
def rightBase (x : List K) (wlen : Option ℕ) (p : ℕ) : K × ℕ :=
  base (x.getD p 0) (rightOf x p (reach x wlen)) 0 (x.getD p 0, 0)

/-- `_peak_prominences` of one peak. -/
def prominence (x : List K) (wlen : Option ℕ) (p : ℕ) : K :=
  x.getD p 0 - max (leftBase x wlen p).1 (rightBase x wlen p).1

/-- Walk away from the peak while samples are above `height`, at most to the base: steps made. -/
def stepsAbove (height : K) (last : ℕ) : List K → ℕ → ℕ
  | [], k => k
  | y :: ys, k => if k < last ∧ height < y then stepsAbove height last ys (k + 1) else k

/-- Distance from the peak to the point where the data, interpolated linearly, reach `height`; `y` are the samples away from
the peak. -/
def halfWidth (height : K) (last : ℕ) (y : List K) : K :=
  let k := stepsAbove height last y 0
  if y.getD k 0 < height then (k : K) - (height - y.getD k 0) / (y.getD (k - 1) 0 - y.getD k 0) else (k : K)

/-- `_peak_widths` of one peak, in samples. -/
def width (x : List K) (wlen : Option ℕ) (relHeight : K) (p : ℕ) : K :=
  let height := x.getD p 0 - prominence x wlen p * relHeight
  halfWidth height (leftBase x wlen p).2 (leftOf x p x.length) +
    halfWidth height (rightBase x wlen p).2 (rightOf x p x.length)

/-! ### `_select_by_peak_distance` -/

/-- Is peak `k` (by number) closer than `distance` samples to peak `j`? -/
def tooClose (peaks : List ℕ) (distance : ℤ) (j k : ℕ) : Bool :=
  decide (j ≠ k ∧ |(peaks.getD j 0 : ℤ) - (peaks.getD k 0 : ℤ)| < distance)

/-- One step of the loop: the peaks that are kept after peak `j` was looked at.  Peaks are in increasing order, so the two inner
loops mark exactly the peaks that are too close. -/
def distanceStep (peaks : List ℕ) (distance : ℤ) (keep : List ℕ) (j : ℕ) : List ℕ :=
  if j ∈ keep then keep.filter fun k => !tooClose peaks distance j k else keep

/-- `_select_by_peak_distance(peaks, priority, distance)`: the numbers of the peaks kept.  The highest are looked at first. -/
def selectByDistance (argsort : List K → List ℕ) (peaks : List ℕ) (priority : List K) (distance : ℤ) : List ℕ :=
  (argsort priority).reverse.foldl (distanceStep peaks distance) (List.range peaks.length)

/-! ### `find_peaks` -/

/-- `_unpack_condition_args`: a condition is nothing, a smallest value, or a smallest and a largest value. -/
inductive Cond (K : Type)
  | any
  | atLeast (lo : K)
  | between (lo hi : K)

/-- `_select_by_property` -/
def Cond.holds : Cond K → K → Bool
  | .any, _ => true
  | .atLeast lo, v => decide (lo ≤ v)
  | .between lo hi, v => decide (lo ≤ v ∧ v ≤ hi)

def Cond.given : Cond K → Bool
  | .any => false
  | _ => true

/-- The value of an option as a condition. -/
def Leaf.cond : Leaf K → Py (Cond K)
  | .none => .ok .any
  | .bool b => .ok (.atLeast (if b then 1 else 0))
  | .int n => .ok (.atLeast n)
  | .num x => .ok (.atLeast x)
  | .pair m n => .ok (.between m n)
  | _ => .error .typeError

/-- The value of an option as a number, if there is one. -/
def Leaf.optNumber : Leaf K → Py (Option K)
  | .none => .ok Option.none
  | v => v.number.map Option.some

/-- Options of `find_peaks`. -/
structure PeakOptions (K : Type) where
  height : Cond K
  threshold : Cond K
  distance : Option K
  prominence : Cond K
  width : Cond K
  wlen : Option K
  relHeight : K
  plateauSize : Cond K

/-- `_select_by_peak_threshold`: both neighbours are lower by at least the smallest and at most the largest value. -/
def Cond.holdsBoth : Cond K → K → K → Bool
  | .any, _, _ => true
  | .atLeast lo, v, w => decide (lo ≤ min v w)
  | .between lo hi, v, w => decide (lo ≤ min v w ∧ max v w ≤ hi)

/-- The maxima that meet the conditions on size of the plateau, height and threshold. -/
def candidates (o : PeakOptions K) (x : List K) : List ℕ :=
  let peaks := ((plateaus x).filter fun p => o.plateauSize.holds (((p.2 - p.1 + 1 : ℕ) : K))).map middle
  let peaks := peaks.filter fun p => o.height.holds (x.getD p 0)
  peaks.filter fun p => o.threshold.holdsBoth (x.getD p 0 - x.getD (p - 1) 0) (x.getD p 0 - x.getD (p + 1) 0)

variable [FloorRing K]

/-- Reading the options; those that are absent have scipy's defaults. -/
def peakOptions (kw : String → Option (Leaf K)) : Py (PeakOptions K) := do
  let value := fun key => (kw key).getD .none
  let height ← (value "height").cond
  let threshold ← (value "threshold").cond
  let distance ← (value "distance").optNumber
  let prominence ← (value "prominence").cond
  let width ← (value "width").cond
  let wlen ← (value "wlen").optNumber
  let relHeight ← ((kw "rel_height").getD (.num (1 / 2))).number
  let plateauSize ← (value "plateau_size").cond
  pure ⟨height, threshold, distance, prominence, width, wlen, relHeight, plateauSize⟩

/-- Those left after the condition on distance. -/
def spaced (argsort : List K → List ℕ) (distance : Option K) (x : List K) (peaks : List ℕ) : List ℕ :=
  match distance with
  | none => peaks
  | some d =>
    let keep := selectByDistance argsort peaks (peaks.map fun p => x.getD p 0) ⌈d⌉
    (List.range peaks.length).filterMap fun j => if j ∈ keep then peaks[j]? else none

/-- `find_peaks(x, …)[0]` -/
def findPeaksWith (argsort : List K → List ℕ) (o : PeakOptions K) (x : List K) : Py (List ℕ) :=
  if o.distance.any (fun d => decide (d < 1)) then .error .valueError
  else
    let peaks := spaced argsort o.distance x (candidates o x)
    if o.prominence.given || o.width.given then
      if o.wlen.any (fun w => decide (w ≤ 1)) then .error .valueError
      else if o.width.given ∧ o.relHeight < 0 then .error .valueError
      else
        let wlen := o.wlen.map fun w => (⌈w⌉).toNat
        let peaks := peaks.filter fun p => o.prominence.holds (prominence x wlen p)
        .ok (peaks.filter fun p => o.width.holds (width x wlen o.relHeight p))
    else .ok peaks

/-- `find_peaks(x, **kw)[0]`, the parameter `Libs.peaks`. -/
def findPeaks (argsort : List K → List ℕ) (kw : String → Option (Leaf K)) (x : List K) : Py (List ℕ) := do
  let o ← peakOptions kw
  findPeaksWith argsort o x

/-- The call of the methods based on fits (eccDefinitionUsingFrequencyFits.py 660-663), as the parameter `FitsLib.findPeaks`. -/
def scipyFitsPeaks (argsort : List K → List ℕ) (x : List K) (distance : ℤ) (prominence : K) : Py (List ℕ) :=
  findPeaks argsort (fun key => if key = "distance" then some (.int distance)
    else if key = "prominence" then some (.num prominence) else none) x

/-- The call of the spin filter (spin_filter.py 192-193), as the parameter `FilterLib.peaks`. -/
def scipyFilterPeaks (argsort : List K → List ℕ) (x : List K) (distance : ℤ) : Py (List ℕ) :=
  findPeaks argsort (fun key => if key = "distance" then some (.int distance) else none) x

end

end GwEcc
