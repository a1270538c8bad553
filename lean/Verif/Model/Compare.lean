import Verif.Model.Measure
import Verif.Model.Modes

/-!
# Model of `compare_methods.py` and `truncate_waveform_by_flow.py`
-/

namespace GwEcc.Compare

variable {K : Type} [Field K] [LinearOrder K]

/-! ## `np.unwrap` -/

/-- The correction `np.unwrap` adds from one entry on, from the difference to the entry before. -/
def unwrapStep [FloorRing K] (pi dd : K) : K :=
  let m := pyMod (dd + pi) (2 * pi) - pi
  let m := if m = -pi ∧ 0 < dd then pi else m
  if |dd| < pi then 0 else m - dd

/-- The corrections are accumulated (`cumsum`). -/
def unwrapFrom [FloorRing K] (pi : K) : K → K → List K → List K
  | _, _, [] => []
  | prev, acc, x :: rest => (x + (acc + unwrapStep pi (x - prev))) :: unwrapFrom pi x (acc + unwrapStep pi (x - prev)) rest

/-- `np.unwrap(p)`. -/
def unwrap [FloorRing K] (pi : K) : List K → List K
  | [] => []
  | x :: rest => x :: unwrapFrom pi x 0 rest

/-! ## compare_methods.py -/

/-- `l[mask]`; numpy refuses a mask of another length. -/
def maskSelect {α : Type} (mask : List Bool) (l : List α) : Py (List α) :=
  if mask.length = l.length then .ok ((l.zip mask).filterMap fun p => if p.2 then some p.1 else none) else .error .indexError

/-- `np.testing.assert_allclose(a, b)` for arrays: `AssertionError` unless shapes agree and `|a - b| <= 1e-7 |b|`. -/
def assertClose (a b : List K) : Py Unit :=
  if a.length = b.length ∧ (a.zip b).all (fun p => decide (|p.1 - p.2| ≤ 1 / 10 ^ 7 * |p.2|)) then .ok () else .error .exception

/-- What the comparison reads from a measurement object. -/
structure Measured (K : Type) where
  trefIn : List K
  tmin : K
  tmax : K
  trefOut : List K
  ecc : List K
  meanAno : List K

/-- What the comparison returns. -/
structure Errors (K : Type) where
  t : List K
  ecc : List K
  meanAno : List K
  ecc1 : List K
  ecc2 : List K
  meanAno1 : List K
  meanAno2 : List K
  deriving DecidableEq

/-- compare_methods.py 63-77: the window of common times. -/
def commonWindow (o1 o2 : Measured K) (tmin tmax : Option K) : Py (K × K) := do
  let lo := max o1.tmin o2.tmin
  let hi := min o1.tmax o2.tmax
  let lo ← (match tmin with
    | some x => if hi < x then .error .exception else .ok (max lo x)
    | none => .ok lo : Py K)
  let hi ← (match tmax with
    | some x => if x < lo then .error .exception else .ok (min hi x)
    | none => .ok hi : Py K)
  pure (lo, hi)

/-- compare_methods.py 79-83: `np.logical_and(t >= lo, t < hi)`. -/
def inWindow (lo hi : K) (t : List K) : List Bool := t.map fun x => decide (lo ≤ x) && decide (x < hi)

/-- compare_methods.py 6-101 `compute_errors_between_methods`. -/
def computeErrors [FloorRing K] (pi : K) (o1 o2 : Measured K) (tmin tmax : Option K) : Py (Errors K) := do
  assertClose o1.trefIn o2.trefIn
  let (lo, hi) ← commonWindow o1 o2 tmin tmax
  let m1 := inWindow lo hi o1.trefOut
  let m2 := inWindow lo hi o2.trefOut
  let t1 ← maskSelect m1 o1.trefOut
  let t2 ← maskSelect m2 o2.trefOut
  assertClose t1 t2
  let e1 ← maskSelect m1 o1.ecc
  let e2 ← maskSelect m2 o2.ecc
  let a1 ← maskSelect m1 o1.meanAno
  let a2 ← maskSelect m2 o2.meanAno
  pure { t := t1, ecc := List.zipWith (fun x y => |x - y|) e1 e2,
         meanAno := List.zipWith (fun x y => |x - y|) (unwrap pi a1) (unwrap pi a2),
         ecc1 := e1, ecc2 := e2, meanAno1 := a1, meanAno2 := a2 }

/-! ## truncate_waveform_by_flow.py -/

variable {C : Type}

/-- truncate_waveform_by_flow.py 99-108: cut the waveform where the frequency through the pericenters (values `fp` at the times `tp`)
first reaches `flow`. -/
def truncateAt (t tp fp : List K) (modes : Dict LM (List C)) (flow : K) (mMax : ℤ) : Py (K × List K × Dict LM (List C)) := do
  let idx ← (match npWhere (fun f => decide (f * ((mMax : K) / 2) ≥ flow)) fp with
    | [] => .error .indexError
    | i :: _ => .ok i : Py ℕ)
  let tlow ← pyGet tp idx
  let mask := t.map fun x => decide (x ≥ tlow)
  let modes ← modes.mapM fun p => do
    let h ← maskSelect mask p.2
    pure (p.1, h)
  let t ← maskSelect mask t
  pure (tlow, t, modes)

/-- truncate_waveform_by_flow.py 70-117.  `build` stands for the rest of the constructor, `find` for lines 78-98: the times and
frequencies through the pericenters; `gwecc_object` is not defined for an unknown method (`UnboundLocalError`, a `NameError`). -/
def truncateByFlow {O : Type} (build : MethodClass → Domain × Val K → List K → Dict LM (List C) → Py O)
    (find : O → Py (List K × List K)) (data : Option (List K × Dict LM (List C))) (flow : K) (mMax : Option ℤ) (method : String) :
    Py (K × List K × Dict LM (List C)) :=
  match data with
  | none => .error .valueError
  | some (t, modes) =>
    match availableMethods.get? method with
    | some cls => do
      let ref ← initReference (none : Option (Val K)) none "inertial"
      let o ← build cls ref t modes
      let (tp, fp) ← find o
      let m ← (match mMax, modes with
        | some m, _ => .ok m
        | none, [] => .error .valueError
        | none, p :: rest => .ok (rest.foldl (fun m q => max m q.1.2) p.1.2) : Py ℤ)
      truncateAt t tp fp modes flow m
    | none => .error .nameError

end GwEcc.Compare
