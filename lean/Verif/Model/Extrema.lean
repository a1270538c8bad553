import Verif.Py
import Verif.Model.Utils

/-!
# Model of the selection and checking of extrema in `gw_eccentricity/eccDefinition.py`

`ph i` and `t i` stand for `self.phase_gw[i]` and `self.t[i]`; the extrema finders return valid sample indices,
so array lookups at extrema cannot fail.
Simplification: `delta[1:]/delta[:-1]` with a zero divisor is inf/nan in numpy (with a warning) and 0 here; the
theorems that look at ratios assume increasing phase.
-/

namespace GwEcc

section extrema

variable {K : Type} [Field K] [LinearOrder K]

/-- `l[-1]`; `IndexError` on an empty array. -/
def pyLast {α : Type} (l : List α) : Py α :=
  match l.getLast? with
  | some a => .ok a
  | none => .error .indexError

/-- The block eccDefinition.py 1273-1279 (pericenters) and 1280-1286 (apocenters): of the extrema `l` after `x` keep only
the first. -/
def trimEnd (level : ℤ) (l : List ℕ) (x : ℕ) : Py (List ℕ) :=
  let atEnd := l.filter (· > x)
  if atEnd.length > 1 then do
    let _ ← debugMessage level false
    let e0 ← pyGet atEnd 0
    pure (l.filter (· ≤ e0))
  else pure l

/-- The block eccDefinition.py 1289-1295 (pericenters) and 1296-1302 (apocenters): of the extrema `l` before `x` keep only
the last. -/
def trimStart (level : ℤ) (l : List ℕ) (x : ℕ) : Py (List ℕ) :=
  let atStart := l.filter (· < x)
  if atStart.length > 1 then do
    let _ ← debugMessage level false
    let e1 ← pyLast atStart
    pure (l.filter (· ≥ e1))
  else pure l

/-- `drop_extra_extrema_at_ends`, eccDefinition.py 1272-1304. -/
def dropExtraAtEnds (level : ℤ) (pericenters apocenters : List ℕ) : Py (List ℕ × List ℕ) := do
  let aLast ← pyLast apocenters
  let pericenters ← trimEnd level pericenters aLast
  let pLast ← pyLast pericenters
  let apocenters ← trimEnd level apocenters pLast
  let aFirst ← pyGet apocenters 0
  let pericenters ← trimStart level pericenters aFirst
  let pFirst ← pyGet pericenters 0
  let apocenters ← trimStart level apocenters pFirst
  pure (pericenters, apocenters)

/-- `r_delta_phase_gw_extrema`, eccDefinition.py 1342-1345: ratios of successive phase differences. -/
def jumpRatios (ph : ℕ → K) (ext : List ℕ) : List K :=
  let delta := diff (ext.map ph)
  List.zipWith (· / ·) (delta.drop 1) delta.dropLast

/-- First part of `drop_extrema_if_extrema_jumps`, eccDefinition.py 1346-1380: a jump near the end. -/
def dropJumpsEnd (r : List K) (maxR : K) (level : ℤ) (ext : List ℕ) : Py (List ℕ) :=
  match npWhere (fun x => decide (x > maxR)) r with
  | [] => pure ext
  | first :: _ =>
    if first > r.length / 2 then do
      let e1 ← pyGet ext (first + 1)
      let _ ← pyGet ext (first + 2)
      let _ ← debugMessage level false
      pure (ext.filter (· ≤ e1))
    else pure ext

/-- Second part of `drop_extrema_if_extrema_jumps`, eccDefinition.py 1381-1405: a jump near the start. -/
def dropJumpsStart (r : List K) (maxR : K) (level : ℤ) (ext : List ℕ) : Py (List ℕ) :=
  match (npWhere (fun x => decide (x < 1 / maxR)) r).getLast? with
  | none => pure ext
  | some last =>
    if last < r.length / 2 then do
      let _ ← pyGet ext (last + 1)
      let _ ← pyGet ext (last + 2)
      let _ ← debugMessage level false
      let e0 ← pyGet ext last
      pure (ext.filter (· ≥ e0))
    else pure ext

/-- `drop_extrema_if_extrema_jumps`, eccDefinition.py 1340-1406.  The ratios are computed once, before anything is
dropped (line 1344). -/
def dropJumps (ph : ℕ → K) (maxR : K) (level : ℤ) (ext : List ℕ) : Py (List ℕ) := do
  let r := jumpRatios ph ext
  let ext ← dropJumpsEnd r maxR level ext
  dropJumpsStart r maxR level ext

/-- `drop_extrema_if_too_close`, eccDefinition.py 1427-1471; `minDiff` is the default `4*np.pi`. -/
def dropTooClose (ph : ℕ → K) (minDiff : K) (level : ℤ) (ext : List ℕ) : Py (List ℕ) := do
  let d := diff (ext.map ph)
  let close := npWhere (fun x => decide (x < minDiff)) d
  let mid := d.length / 2
  match close with
  | [] => pure ext
  | first :: rest =>
    let ext1 ← (if first > mid then do
        let e ← pyGet ext first
        let _ ← pyGet ext (first + 1)
        let _ ← debugMessage level false
        pure (ext.filter (· ≤ e))
      else pure ext)
    let last := (first :: rest).getLast (by simp)
    if last < mid then do
      let e ← pyGet ext1 last
      let _ ← debugMessage level false
      pure (ext1.filter (· ≥ e))
    else pure ext1

/-- `get_good_extrema`, eccDefinition.py 1523-1533. -/
def getGoodExtrema (ph : ℕ → K) (maxR minDiff : K) (level : ℤ) (pericenters apocenters : List ℕ) :
    Py (List ℕ × List ℕ) := do
  let pericenters ← dropJumps ph maxR level pericenters
  let apocenters ← dropJumps ph maxR level apocenters
  let pericenters ← dropTooClose ph minDiff level pericenters
  let apocenters ← dropTooClose ph minDiff level apocenters
  dropExtraAtEnds level pericenters apocenters

/-- `get_apocenters_from_pericenters`, eccDefinition.py 4462-4465: `(p[:-1] + p[1:]) / 2` cast to int. -/
def midpointApocenters (pericenters : List ℕ) : List ℕ :=
  List.zipWith (fun a b => (a + b) / 2) pericenters.dropLast (pericenters.drop 1)

/-- `arr[::2] = arr1; arr[1::2] = arr2`, eccDefinition.py 2870-2876, for lengths equal or `arr1` one longer. -/
def interleave : List ℕ → List ℕ → List ℕ
  | [], _ => []
  | x :: xs, ys => x :: interleave ys xs
termination_by xs ys => xs.length + ys.length
decreasing_by simp; omega

/-- `check_pericenters_and_apocenters_appear_alternately`, eccDefinition.py 2829-2888.  Result: what the user sees.
Empty extrema lists cannot occur here (both have at least two entries, checked before). -/
def checkAlternate (t : ℕ → K) (level : ℤ) (p a : List ℕ) : Py Outcome := do
  if level < 1 then pure .silent
  else if (p.length : ℤ) - a.length ≥ 2 ∨ (a.length : ℤ) - p.length ≥ 2 then
    debugMessage level false
  else do
    let (arr1, arr2) ← (if p.length = a.length then do
        let p0 ← pyGet p 0
        let a0 ← pyGet a 0
        pure (if t p0 < t a0 then (p, a) else (a, p))
      else pure (if p.length > a.length then (p, a) else (a, p)))
    let tDiff := diff ((interleave arr1 arr2).map t)
    if tDiff.any (fun d => decide (d < 0)) then debugMessage level false
    else pure .silent

end extrema

end GwEcc
